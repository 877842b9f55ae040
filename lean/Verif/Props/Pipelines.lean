import Verif.Props.Compose
import Verif.Props.Join
import Verif.Props.Stateless
import Verif.Props.Windows
import Verif.Props.Averages
import Verif.Props.AveragesExact
/-
C66: what pipelines compute, from what their operators compute.
-/
namespace TS
open PyVal
variable {α A B C : Type}

theorem stepAll_wf {op : Operator α} (hs : op.Sane) {xs : List (Val α)} {s : Val α} {tr : List (Val α × Val α)} (hx : ∀ x ∈ xs, x.WF) (hw : s.WF)
    (h : stepAll op xs s = .ok tr) : ∀ e ∈ tr, e.1.WF ∧ e.2.WF := by
  induction xs generalizing s tr with
  | nil => cases h; simp
  | cons x xs ih =>
    obtain ⟨o, n, i, tr', h1, h2, rfl⟩ := stepAll_cons_ok.1 h
    have w := hs.call (hx x (by simp)) (by rintro _ ⟨⟩; exact hw) h1
    intro e he
    rcases List.mem_cons.1 he with rfl | he
    · exact ⟨w.1, w.2.1⟩
    · exact ih (fun x hh => hx x (by simp [hh])) w.2.1 h2 e he

/-- A streamed call returns well-formed values. -/
theorem call_wf {op : Operator α} (hs : op.Sane) (hu : op.Uniform) {v : Val α} (hw : v.WF) {st : Option (Val α)} (hst : ∀ s ∈ st, s.WF) {z sf s0 : Val α}
    (h : call op v st = .ok (z, sf, s0)) : z.WF ∧ sf.WF ∧ s0.WF := by
  obtain ⟨-, x, xs, hin, o, n, i, h1, rfl, -, -, tr, h4, -, h6, h7⟩ := (C01_streaming_eq_stepping hs hu hw hst _ _ _).1 h
  have hx := hin.mem_WF hw
  have w := hs.call (hx x (by simp)) hst h1
  have w0 : (st.getD i).WF := by
    cases st with
    | none => exact w.2.2
    | some s => exact hst s rfl
  have ht := stepAll_wf hs hx w0 h4
  have hl := stepAll_length h4
  refine ⟨?_, ?_, w0⟩
  · cases tr with
    | nil => simp at hl
    | cons e tr =>
      have := sliceAt_skel (h6.slice 0 (by simp))
      exact (WF_of_skel_eq this).1 (ht e (by simp)).1
  · obtain ⟨e, he, rfl⟩ := List.mem_map.1 (List.mem_of_getLast? h7)
    exact (ht e he).2

theorem scan_take_of (y : List A → B) (h xs : List A) (i : Nat) : scan y h (xs.take i) = (scan y h xs).take i := by
  apply List.ext_getElem (by simp)
  intro j h1 h2
  simp only [scan_length, List.length_take] at h1
  rw [scan_getElem, List.getElem_take, scan_getElem, List.take_take, Nat.min_eq_left (by omega)]

theorem scan_scan (y : List A → B) (z : List B → C) (h xs : List A) :
    scan z (scan y [] h) (scan y h xs) = scan (fun k => z (scan y [] k)) h xs := by
  apply List.ext_getElem (by simp)
  intro i h1 h2
  rw [scan_getElem, scan_getElem, scan_append, List.nil_append, scan_take_of]

section
variable [TFNum α]

/-- The encoding gives series: nested values of tensors whose leading dimension is the number of samples. -/
def Rows (ser : List A → Val α) : Prop :=
  ∀ xs, xs ≠ [] → (ser xs).WF ∧ flatten (ser xs) ≠ [] ∧ ∀ l ∈ flatten (ser xs), l.size0 = .ok xs.length

theorem states_wf {op : Operator α} {ser : List A → Val α} {outs : List B → Val α} {y : List A → B} {st : List A → Val α} (hs : op.Sane) (hu : op.Uniform)
    (hw : ∀ xs, xs ≠ [] → (ser xs).WF) (h : ∀ xs, xs ≠ [] → call op (ser xs) none = .ok (outs (scan y [] xs), st xs, st []))
    {xs : List A} (hx : xs ≠ []) (k : List A) : (st k).WF := by
  rcases eq_or_ne k [] with rfl | hk
  · exact (call_wf hs hu (hw xs hx) (by simp) (h xs hx)).2.2
  · exact (call_wf hs hu (hw k hk) (by simp) (h k hk)).2.1

/-- **C66 What pipelines compute.**  If `g` computes `y` and `f` computes `z` on the outputs of `g`, then `Compose(f, g)` computes `z` of the
history of the values of `y`. -/
theorem C66_compose {f g : Operator α} {D0 D1 D2 : PyVal Unit → Prop} (lg : Lib g D0 D1) (lf : Lib f D1 D2) {ser : List A → Val α}
    {mid : List B → Val α} {outs : List C → Val α} {y : List A → B} {z : List B → C} (hser : ∀ xs, xs ≠ [] → (ser xs).WF ∧ D0 (ser xs).skel)
    (hg : StreamsAs g ser mid y) (hf : StreamsAs f mid outs z) : StreamsAs (Compose [f, g]) ser outs (fun h => z (scan y [] h)) := by
  obtain ⟨sg, g1, g2⟩ := hg
  obtain ⟨sf, f1, f2⟩ := hf
  refine ⟨fun h => .tup [sg h, sf (scan y [] h)], fun xs hx => ?_, fun h xs hx => ?_⟩
  · refine C10_compose_pipeline_library (Ds := fun | 0 => D0 | 1 => D1 | _ => D2) (by simp) ?_ (hser xs hx).1 (hser xs hx).2 (sfs := [sg xs, sf (scan y [] xs)]) ?_
    · intro k hk
      match k, hk with
      | 0, _ => exact lg
      | 1, _ => exact lf
    · have := f1 (scan y [] xs) (scan_ne_nil hx)
      rw [show scan z [] (scan y [] xs) = _ from scan_scan y z [] xs] at this
      exact .cons (g1 xs hx) (.cons this (.nil _))
  · have wg := states_wf lg.ok.sane lg.ok.uniform (fun xs hx => (hser xs hx).1) g1 hx
    have hmid : ∀ bs, bs ≠ [] → (∃ xs, xs ≠ [] ∧ scan y [] xs = bs) → (mid bs).WF := by
      rintro _ _ ⟨xs, hx, rfl⟩
      exact (call_wf lg.ok.sane lg.ok.uniform (hser xs hx).1 (by simp) (g1 xs hx)).1
    have wf : (sf (scan y [] h)).WF := by
      have c0 := f1 (scan y [] xs) (scan_ne_nil hx)
      have w0 := call_wf lf.ok.sane lf.ok.uniform (hmid _ (scan_ne_nil hx) ⟨xs, hx, rfl⟩) (by simp) c0
      rcases eq_or_ne h [] with rfl | hh
      · exact w0.2.2
      · exact (call_wf lf.ok.sane lf.ok.uniform (hmid _ (scan_ne_nil hh) ⟨h, hh, rfl⟩) (by simp) (f1 _ (scan_ne_nil hh))).2.1
    refine (C10_compose_pipeline_resume (ops := [f, g]) (by simp) ?_ (ss := [sg h, sf (scan y [] h)]) ?_ (hser xs hx).1
      (sfs := [sg (h ++ xs), sf (scan y [] (h ++ xs))]) ?_).1
    · intro op ho
      simp only [List.mem_cons, List.not_mem_nil, or_false] at ho
      rcases ho with rfl | rfl
      · exact ⟨lf.ok.sane, lf.ok.uniform⟩
      · exact ⟨lg.ok.sane, lg.ok.uniform⟩
    · intro s hs
      simp only [List.mem_cons, List.not_mem_nil, or_false] at hs
      rcases hs with rfl | rfl
      · exact wg h
      · exact wf
    · have := f2 (scan y [] h) (scan y h xs) (scan_ne_nil hx)
      have e : scan y [] (h ++ xs) = scan y [] h ++ scan y h xs := by rw [scan_append, List.nil_append]
      rw [scan_scan, ← e] at this
      have e' := Pipeline.cons (g2 h xs hx) (.cons this (.nil _))
      exact e'

theorem bank_ofFn {n : Nat} {ops : Fin n → Operator α} {st : Fin n → Option (Val α)} {v z sf s0 : Fin n → Val α}
    (h : ∀ i, call (ops i) (v i) (st i) = .ok (z i, sf i, s0 i)) :
    Bank (List.ofFn ops) (List.ofFn st) (List.ofFn v) (List.ofFn z) (List.ofFn sf) (List.ofFn s0) := by
  induction n with
  | zero => simpa using Bank.nil
  | succ n ih =>
    simp only [List.ofFn_succ]
    exact .cons (h 0) (ih fun i => h i.succ)

theorem scan_coords {n : Nat} {A B : Fin n → Type} (y : ∀ i, List (A i) → B i) (h xs : List (∀ i, A i)) (i : Fin n) :
    (scan (fun (h : List (∀ i, A i)) i => y i (h.map (· i))) h xs).map (· i) = scan (y i) (h.map (· i)) (xs.map (· i)) := by
  apply List.ext_getElem (by simp)
  intro j h1 h2
  simp [scan_getElem, ← List.map_take]

/-- If every operator of a `Join` computes its own function of its own series, the `Join` computes the tuple of the values. -/
theorem C66_join {n : Nat} (hn : 0 < n) {ops : Fin n → Operator α} {D E : Fin n → PyVal Unit → Prop} (lib : ∀ i, Lib (ops i) (D i) (E i))
    {A B : Fin n → Type} {ser : ∀ i, List (A i) → Val α} {outs : ∀ i, List (B i) → Val α} {y : ∀ i, List (A i) → B i} (hser : ∀ i, Rows (ser i))
    (h : ∀ i, StreamsAs (ops i) (ser i) (outs i) (y i)) :
    StreamsAs (Join (List.ofFn ops)) (fun l : List (∀ i, A i) => .tup (List.ofFn fun i => ser i (l.map (· i))))
      (fun l : List (∀ i, B i) => .tup (List.ofFn fun i => outs i (l.map (· i)))) (fun h i => y i (h.map (· i))) := by
  choose st h1 h2 using h
  have hne : List.ofFn ops ≠ [] := by rw [← List.length_pos_iff]; simpa using hn
  have hop : ∀ op ∈ List.ofFn ops, op.Sane ∧ op.Uniform := by
    intro op ho
    obtain ⟨i, rfl⟩ := (List.mem_ofFn' _ _).1 ho
    exact ⟨(lib i).ok.sane, (lib i).ok.uniform⟩
  have hv : ∀ xs : List (∀ i, A i), xs ≠ [] → (∀ v ∈ List.ofFn fun i => ser i (xs.map (· i)), v.WF ∧ flatten v ≠ []) ∧
      ∀ v ∈ List.ofFn fun i => ser i (xs.map (· i)), ∀ l ∈ flatten v, l.size0 = .ok xs.length := by
    intro xs hx
    constructor
    all_goals
      intro v hv
      obtain ⟨i, rfl⟩ := (List.mem_ofFn' _ _).1 hv
      have := hser i (xs.map (· i)) (by simpa using hx)
    · exact ⟨this.1, this.2.1⟩
    · simpa using this.2.2
  refine ⟨fun h => .tup (List.ofFn fun i => st i (h.map (· i))), fun xs hx => ?_, fun h xs hx => ?_⟩
  · refine (C12_join_bank hne hop (by simp) (hv xs hx).1 (hv xs hx).2 (.inl ⟨rfl, rfl⟩) _).2 ⟨_, _, _, ?_, rfl⟩
    rw [List.length_ofFn, ← List.ofFn_const]
    refine bank_ofFn fun i => ?_
    rw [scan_coords]
    exact h1 i (xs.map (· i)) (by simpa using hx)
  · have hw : ∀ s ∈ List.ofFn fun i => st i (h.map (· i)), s.WF := by
      intro s hs
      obtain ⟨i, rfl⟩ := (List.mem_ofFn' _ _).1 hs
      exact states_wf (lib i).ok.sane (lib i).ok.uniform (fun xs hx => (hser i xs hx).1) (h1 i) (xs := xs.map (· i)) (by simpa using hx) _
    refine (C12_join_bank hne hop (by simp) (hv xs hx).1 (hv xs hx).2 (.inr ⟨_, rfl, rfl, by simp, hw⟩) _).2 ⟨_, _, _, ?_, rfl⟩
    rw [List.map_ofFn]
    refine bank_ofFn fun i => ?_
    rw [scan_coords, List.map_append]
    exact h2 i (h.map (· i)) (xs.map (· i)) (by simpa using hx)
example := C66_join (α := XR ℚ) (n := 2) (by norm_num) (ops := ![SMA (2 : Nat), EMA (3 : Nat)]) (D := fun _ => (· = .leaf ())) (E := fun _ => (· = .leaf ()))
  (fun i => by fin_cases i <;> exact Lib.weaken (Lib.basic (by first | exact .sma _ | exact .ema _)) (by rintro _ rfl; rfl) fun _ h => h)
  (A := fun _ => Idx [] → XR ℚ) (B := fun _ => Idx [] → XR ℚ) (ser := fun _ => vBuf) (outs := fun _ => vBuf) (y := ![movingAvg 2, expAvg 3])
  (fun i xs hx => by simp [flatten, Leaf.size0]) fun i => by
    fin_cases i
    · exact C25_sma (by omega) []
    · exact C26_ema (by omega) []

/-- A stateless operator applied to the last sample. -/
theorem streams_pointwise {op : Operator α} {ser : List A → Val α} {outs : List B → Val α} (f : A → B) (d : A)
    (h : ∀ xs, xs ≠ [] → ∀ st, NoState st → call op (ser xs) st = .ok (outs (xs.map f), PyVal.unit, PyVal.unit)) :
    StreamsAs op ser outs (fun h => f (h.getLastD d)) := by
  have e : ∀ h xs, scan (fun h => f (h.getLastD d)) h xs = xs.map f := by
    intro h xs
    apply List.ext_getElem (by simp)
    intro i h1 h2
    simp only [List.length_map] at h2
    rw [scan_getElem, ← List.take_concat_get' xs i h2, ← List.append_assoc, getLastD_snoc, List.getElem_map]
  exact ⟨fun _ => PyVal.unit, fun xs hx => by rw [e]; exact h xs hx _ (.inl rfl), fun k xs hx => by rw [e]; exact h xs hx _ (.inr rfl)⟩

/-- `Fork(n)` hands on the sample `n` times; -/
theorem C66_fork (n : Nat) {lf : List A → Leaf α} (hser : ∀ xs, (lf xs).size0 = .ok xs.length) (d : A) :
    StreamsAs (Fork n) (fun l => .leaf (lf l)) (fun l : List A => .tup (List.replicate n (.leaf (lf l)))) (fun h => h.getLastD d) :=
  streams_pointwise id d fun xs hx st hst => by
    obtain ⟨x, xs, rfl⟩ := List.exists_cons_of_ne_nil hx
    rw [List.map_id]
    exact C23_fork n (n := xs.length) (l := lf (x :: xs)) (by simpa [IsTensorSeries] using hser (x :: xs)) hst
example := C66_fork (α := XR ℚ) (A := XR ℚ) 3 (lf := fun xs => .f (Tensor.pack [] (xs.map fun x _ => x))) (by simp [Leaf.size0]) (.fin 2)

/-- the arithmetic operators combine the two samples; -/
theorem C66_arithmetic {s : List Nat} (d : (Idx s → α) × (Idx s → α)) :
    StreamsAs (Add : Operator α) (vBuf2 (s := s)) vBuf (fun h => (h.getLastD d).1 + (h.getLastD d).2) ∧
    StreamsAs (Sub : Operator α) (vBuf2 (s := s)) vBuf (fun h => (h.getLastD d).1 - (h.getLastD d).2) ∧
    StreamsAs (Mul : Operator α) (vBuf2 (s := s)) vBuf (fun h => (h.getLastD d).1 * (h.getLastD d).2) :=
  ⟨streams_pointwise (fun x => x.1 + x.2) d fun _ hx _ hst => (C23_arithmetic hx hst).1,
    streams_pointwise (fun x => x.1 - x.2) d fun _ hx _ hst => (C23_arithmetic hx hst).2.1,
    streams_pointwise (fun x => x.1 * x.2) d fun _ hx _ hst => (C23_arithmetic hx hst).2.2⟩
example := C66_arithmetic (α := XR ℚ) (s := [2]) (fun _ => .fin 3, fun c => if c.1 = 0 then .fin 1 else .pinf)

/-- and `Compose(Join(f1, ..., fn), Fork(n))` runs all operators on the same series. -/
theorem C66_fork_join {n : Nat} (hn : 0 < n) {ops : Fin n → Operator α} {E : Fin n → PyVal Unit → Prop} (lib : ∀ i, Lib (ops i) (· = .leaf ()) (E i))
    {lf : List A → Leaf α} (hser : ∀ xs, (lf xs).size0 = .ok xs.length) (d : A) {B : Fin n → Type} {outs : ∀ i, List (B i) → Val α} {y : ∀ i, List A → B i}
    (h : ∀ i, StreamsAs (ops i) (fun l => .leaf (lf l)) (outs i) (y i)) :
    StreamsAs (Compose [Join (List.ofFn ops), Fork n]) (fun l => .leaf (lf l))
      (fun l : List (∀ i, B i) => .tup (List.ofFn fun i => outs i (l.map (· i)))) (fun h i => y i h) := by
  have hj := C66_join hn lib (A := fun _ => A) (ser := fun _ l => .leaf (lf l)) (fun i xs hx => by simp [flatten, hser]) h
  have lj : Lib (Join (List.ofFn ops)) (· = .tup (List.replicate n (.leaf ())))
      (fun sk => ∃ l, sk = .tup l ∧ l.length = (List.ofFn ops).length ∧ ∀ k (hk : k < l.length), (if h : k < n then E ⟨k, h⟩ l[k] else False)) := by
    refine Lib.weaken (Lib.join (Ds := fun _ => (· = .leaf ())) (Es := fun k sk => if h : k < n then E ⟨k, h⟩ sk else False) fun k hk => ?_) ?_ fun _ h => h
    · simp only [List.length_ofFn] at hk
      simpa [hk] using lib ⟨k, hk⟩
    · rintro _ rfl
      exact ⟨_, .inl rfl, by simp, by simp⟩
  have hj' : StreamsAs (Join (List.ofFn ops)) (fun l : List A => .tup (List.replicate n (.leaf (lf l))))
      (fun l : List (∀ i, B i) => .tup (List.ofFn fun i => outs i (l.map (· i)))) (fun h i => y i h) := by
    have := hj.comap (A' := A) (fun a _ => a) id (y' := fun h i => y i h) fun k _ => by simp [Function.comp_def]
    simpa [Function.comp_def, List.ofFn_const] using this
  have hc := C66_compose (Lib.fork n) lj (ser := fun l => .leaf (lf l)) (fun xs _ => ⟨by simp, by simp [IsArgs, argSkels]⟩) (C66_fork n hser d) hj'
  exact hc.congr fun h _ => by rw [scan_getLastD]

end

/-! ### Examples -/

/-- The moving average of the last two maxima over three samples, as one function of the history. -/
example : StreamsAs (Compose [SMA (2 : Nat), LocalMaximum (3 : Nat)] : Operator (XR ℚ)) vSBuf vSBuf
    (fun h => movingAvg 2 (scan (fun h => Arith.redMax (window 3 h)) [] h)) :=
  C66_compose (Lib.basic (.localMaximum _)) (Lib.weaken (Lib.basic (.sma _)) (D' := (· = .leaf ())) (by rintro _ rfl; rfl) fun _ h => h)
    (fun xs _ => ⟨by simp, by simp [IsArgs, argSkels]⟩) (C21_local_max_streams (by omega)) ((C25_sma (by omega) []).scalar fun l _ => movingAvg_pt 2 l)
example : output (call (Compose [SMA 2, LocalMaximum 3]) (series [1, 5, 2, 0, 0]) none) = .ok (series [0, 3, 5, 5, 7 / 2]) := by decide +kernel

/-- Two averages of one series side by side. -/
example : StreamsAs (Compose [Join (List.ofFn ![SMA (2 : Nat), EMA (3 : Nat)]), Fork 2] : Operator (XR ℚ)) (vBuf (s := []))
    (fun l : List (Fin 2 → Idx [] → XR ℚ) => .tup (List.ofFn fun i => vBuf (l.map (· i)))) (fun h i => (![movingAvg 2, expAvg 3] : Fin 2 → _ → _) i h) :=
  C66_fork_join (by omega) (lf := fun l => .f (Tensor.pack [] l)) (E := fun _ => (· = .leaf ()))
    (fun i => by fin_cases i <;> exact Lib.weaken (Lib.basic (by first | exact .sma _ | exact .ema _)) (by rintro _ rfl; rfl) fun _ h => h)
    (fun xs => by simp [Leaf.size0]) Arith.zero (outs := fun _ => vBuf) fun i => by
      fin_cases i
      · exact C25_sma (by omega) []
      · exact C26_ema (by omega) []
example : output (call (Compose [Join [SMA 2, EMA 3], Fork 2]) (series [2, 4, 6, 8]) none) = .ok (.tup [series [0, 3, 5, 7], series [0, 0, 4, 6]]) := by decide +kernel
example : output (call (Compose [Add, Join [SMA 2, Lag 1]]) (.tup [series [2, 4, 6], series [1, 1, 1]]) none) = .ok (series [0, 4, 6]) := by decide +kernel

end TS
