import Verif.Props.Rounding
import Verif.Props.RSI
import Verif.Props.Windows
import Verif.Props.RiskRatio
/-
C69: what gradual underflow does to the relative strength index.
-/
namespace TS
open PyVal XR

theorem foldl_stuck {A B : Type} {f : A → B → A} {z : A} {x : B} (h : f z x = z) (k : Nat) : (List.replicate k x).foldl f z = z := by
  induction k with
  | zero => rfl
  | succ k ih => rw [List.replicate_succ, List.foldl_cons, h, ih]

/-- binary32 numbers -/
abbrev f32 (l : List ℚ) : List (F32 ℚ) := l.map fun q => F32.of (fin q)

theorem changes_append {α : Type} [TFNum α] (l : List α) (a : α) (k : Nat) : changes (l ++ [a] ++ List.replicate k a) = changes (l ++ [a]) ++ List.replicate k (a - a) := by
  have key : ∀ k, changes (a :: List.replicate k a) = List.replicate k (a - a) := fun k => by
    induction k with
    | zero => rfl
    | succ k ih =>
      rw [List.replicate_succ (n := k) (a := a - a), ← ih]
      rfl
  induction l with
  | nil => simpa [changes] using key k
  | cons b l ih =>
    rcases l with _ | ⟨e, l⟩
    · simpa [changes] using key k
    · simp only [changes, List.cons_append, List.tail_cons, List.zipWith_cons_cons] at ih ⊢
      rw [ih]

/-- once the averages are stuck the index is -/
theorem rsi_stuck {p : Nat} {l : List (F32 ℚ)} {a g e : F32 ℚ} (hl : p ≤ l.length) (hg : avgGain p (changes (l ++ [a])) = g) (he : avgLoss p (changes (l ++ [a])) = e)
    (sg : (g * Arith.ofInt ((p : Int) - 1) + Arith.max (Arith.ofRat 0) (a - a)) / Arith.ofInt p = g) (se : (e * Arith.ofInt ((p : Int) - 1) + - Arith.min (Arith.ofRat 0) (a - a)) / Arith.ofInt p = e) (k : Nat) :
    rsi p (l ++ [a] ++ List.replicate k a) = Arith.ofRat 100 - Arith.ofRat 100 / (Arith.ofRat 1 + g / e) := by
  have hc : p ≤ (changes (l ++ [a])).length := by simp [changes]; omega
  rw [rsi, if_neg (by simp; omega), changes_append]
  have e1 : avgGain p (changes (l ++ [a]) ++ List.replicate k (a - a)) = g := by
    rw [avgGain, wilder, List.drop_append_of_le_length hc, List.take_append_of_le_length hc, List.foldl_append]
    rw [avgGain, wilder] at hg
    rw [hg]
    exact foldl_stuck sg k
  have e2 : avgLoss p (changes (l ++ [a]) ++ List.replicate k (a - a)) = e := by
    rw [avgLoss, List.drop_append_of_le_length hc, List.take_append_of_le_length hc, List.foldl_append]
    rw [avgLoss] at he
    rw [he]
    exact foldl_stuck se k
  rw [e1, e2]

theorem output_last {op : Operator (F32 ℚ)} {y : List (F32 ℚ) → F32 ℚ} (H : StreamsAs op vSBuf vSBuf y) {xs : List (F32 ℚ)} (hx : xs ≠ []) :
    ∃ os, output (call op (vSBuf xs) none) = .ok (vSBuf (os ++ [y xs])) := by
  obtain ⟨st, h1, -⟩ := H
  refine ⟨scan y [] xs.dropLast, ?_⟩
  rw [h1 xs hx]
  conv_lhs => rw [← List.dropLast_append_getLast hx]
  rw [scan_append, scan_cons, scan_nil, List.nil_append, List.dropLast_append_getLast hx]
  rfl

section Exact
variable {K : Type} [Field K] [LinearOrder K] [IsStrictOrderedRing K] [Transc K] [FloorRing K]

theorem wilderAvg_pause {p : Nat} (hp : 0 < p) {l : List K} (hl : p ≤ l.length) (k : Nat) : wilderAvg p (l ++ List.replicate k 0) = wilderAvg p l * (((p : K) - 1) / p) ^ k := by
  have hp' : (p : K) ≠ 0 := by simpa using hp.ne'
  rw [wilderAvg, List.drop_append_of_le_length hl, List.take_append_of_le_length hl, List.foldl_append]
  change _ = (List.foldl _ _ _) * _
  generalize (List.drop p l).foldl (fun g x => (g * ((p : K) - 1) + x) / p) (avg (l.take p)) = g
  induction k generalizing g with
  | zero => simp
  | succ k ih =>
    rw [List.replicate_succ, List.foldl_cons, ih, pow_succ, add_zero, mul_div_assoc]
    ring

omit [FloorRing K] in
theorem XR.fin_div_scale {c : K} (hc : 0 < c) (g e : K) : (XR.fin (g * c) / XR.fin (e * c) : XR K) = XR.fin g / XR.fin e := by
  change XR.div _ _ = XR.div _ _
  simp only [XR.div, mul_eq_zero, hc.ne', or_false]
  split
  · simp only [XR.infOf, mul_pos_iff_of_pos_right hc, mul_neg_iff, hc, hc.not_gt, and_false, and_true, false_or]
  · rw [mul_div_mul_right _ _ hc.ne']

/-- in exact arithmetic a pause leaves the index as it is -/
theorem rsi_pause {p : Nat} (hp : 2 ≤ p) {l : List K} {a : K} (hl : p ≤ l.length) (k : Nat) :
    rsi p ((l ++ [a] ++ List.replicate k a).map XR.fin) = rsi p ((l ++ [a]).map XR.fin) := by
  have hp' : (2 : K) ≤ p := by exact_mod_cast hp
  obtain ⟨d, hd, ld⟩ : ∃ d : List K, changes ((l ++ [a]).map XR.fin) = d.map XR.fin ∧ d.length = l.length := by
    refine ⟨moves (l ++ [a]) l.length, ?_, by simp [moves]⟩
    have := changes_fin (xs := l ++ [a]) (i := l.length) (by simp)
    rwa [List.take_of_length_le (by simp)] at this
  have hc : changes ((l ++ [a] ++ List.replicate k a).map XR.fin) = (d ++ List.replicate k 0).map XR.fin := by
    have := changes_append (l.map XR.fin) (XR.fin a) k
    rw [List.map_append, List.map_append, List.map_replicate, List.map_cons, List.map_nil, this]
    rw [List.map_append, List.map_cons, List.map_nil] at hd
    rw [hd, XR.fin_sub, sub_self, List.map_append, List.map_replicate]
  have hc0 : 0 < ((((p : K) - 1) / p) ^ k) := pow_pos (div_pos (by linarith) (by linarith)) k
  rw [rsi, rsi, if_neg (by simp; omega), if_neg (by simp; omega), hc, hd, avgGain_fin (by omega) (by simp; omega), avgLoss_fin (by omega) (by simp; omega),
    avgGain_fin (by omega) (by omega), avgLoss_fin (by omega) (by omega), List.map_append, List.map_append, List.map_replicate, List.map_replicate, neg_zero, max_self,
    wilderAvg_pause (by omega) (by simp; omega), wilderAvg_pause (by omega) (by simp; omega), XR.fin_div_scale hc0]

/-- **C36, pauses**: exactly computed, an index with period at least 2 does not change while the price does not. -/
theorem C36_pause {p : Nat} (hp : 2 ≤ p) {l : List K} (a : K) (hl : p ≤ l.length) :
    ∃ os v, ∀ k, output (call (RSI (p : Int)) (finSeries (l ++ [a] ++ List.replicate k a)) none) = .ok (vSBuf (os ++ List.replicate (k + 1) v)) := by
  obtain ⟨st, h1, -⟩ := C36_rsi_streams (α := XR K) (p := p) (by omega)
  refine ⟨scan (rsi p) [] (l.map XR.fin), rsi p ((l ++ [a]).map XR.fin), fun k => ?_⟩
  rw [finSeries, h1 _ (by simp)]
  have e : (l ++ [a] ++ List.replicate k a).map XR.fin = l.map XR.fin ++ List.replicate (k + 1) (XR.fin a) := by simp [List.replicate_succ]
  rw [e, scan_append, List.nil_append]
  refine congrArg (fun o => (Except.ok (vSBuf (scan (rsi p) [] (l.map XR.fin) ++ o)) : Res (Val (XR K)))) ?_
  have key : ∀ k n, (∀ j, j < k → rsi p (l.map XR.fin ++ List.replicate (n + j + 1) (XR.fin a)) = rsi p ((l ++ [a]).map XR.fin)) →
      scan (rsi p) (l.map XR.fin ++ List.replicate n (XR.fin a)) (List.replicate k (XR.fin a)) = List.replicate k (rsi p ((l ++ [a]).map XR.fin)) := by
    intro k
    induction k with
    | zero => intro _ _; rfl
    | succ k ih =>
      intro n h
      rw [List.replicate_succ, scan_cons, List.append_assoc, ← List.replicate_succ', h 0 (by omega), ih (n + 1) fun j hj => by rw [← h (j + 1) (by omega)]; congr 3; omega]
      rfl
  have := key (k + 1) 0 fun j _ => by
    rw [← rsi_pause hp hl j]
    simp [List.replicate_succ]
  simpa using this
example := C36_pause (K := ℚ) (p := 2) (by norm_num) (l := [0, 3]) 2 (by norm_num)

end Exact

theorem pause_split {A : Type} (n k : Nat) (a : A) (l : List A) : l ++ List.replicate (n + 1) a ++ List.replicate k a = (l ++ List.replicate n a) ++ [a] ++ List.replicate k a := by
  rw [List.replicate_succ', ← List.append_assoc l]

theorem rsi_stuck_out {p n : Nat} (hp : 0 < p) {l : List ℚ} {a : ℚ} {g e v : F32 ℚ} (hl : p ≤ l.length + n)
    (hg : avgGain p (changes (f32 (l ++ List.replicate n a) ++ [F32.of (fin a)])) = g) (he : avgLoss p (changes (f32 (l ++ List.replicate n a) ++ [F32.of (fin a)])) = e)
    (sg : (g * Arith.ofInt ((p : Int) - 1) + Arith.max (Arith.ofRat 0) (F32.of (fin a) - F32.of (fin a))) / Arith.ofInt p = g)
    (se : (e * Arith.ofInt ((p : Int) - 1) + - Arith.min (Arith.ofRat 0) (F32.of (fin a) - F32.of (fin a))) / Arith.ofInt p = e)
    (hv : Arith.ofRat 100 - Arith.ofRat 100 / (Arith.ofRat 1 + g / e) = v) (k : Nat) :
    ∃ os, output (call (RSI (p : Int)) (series32 (l ++ List.replicate (n + 1) a ++ List.replicate k a)) none) = .ok (vSBuf (os ++ [v])) := by
  have e' : f32 (l ++ List.replicate (n + 1) a ++ List.replicate k a) = f32 (l ++ List.replicate n a) ++ [F32.of (fin a)] ++ List.replicate k (F32.of (fin a)) := by
    rw [pause_split]
    simp only [f32, List.map_append, List.map_replicate, List.map_cons, List.map_nil]
  obtain ⟨os, h⟩ := output_last (C36_rsi_streams (α := F32 ℚ) hp) (xs := f32 (l ++ List.replicate (n + 1) a ++ List.replicate k a)) (by rw [e']; simp)
  refine ⟨os, h.trans ?_⟩
  rw [e', rsi_stuck (by simpa [f32] using hl) hg he sg se k, hv]

theorem rsi_pause_out {p n : Nat} (hp : 2 ≤ p) {l : List ℚ} {a v : ℚ} (hl : p ≤ l.length) {os : List (XR ℚ)}
    (h0 : output (call (RSI (p : Int)) (finSeries (l ++ [a])) none) = .ok (vSBuf (os ++ [fin v]))) (k : Nat) :
    ∃ os, output (call (RSI (p : Int)) (finSeries (l ++ List.replicate (n + 1) a ++ List.replicate k a)) none) = .ok (vSBuf (os ++ [fin v])) := by
  obtain ⟨os', w, h⟩ := C36_pause (K := ℚ) hp a hl
  have h1 := h 0
  rw [List.replicate_zero, List.append_nil, h0] at h1
  have hw : w = fin v := by
    have := vSBuf_inj (Except.ok.inj h1)
    exact (List.cons.inj (List.append_inj_right' this rfl)).1.symm
  have h2 := h (n + k)
  rw [List.replicate_add, ← List.append_assoc, List.append_assoc l, ← List.replicate_one, List.replicate_append_replicate, Nat.add_comm 1, List.replicate_succ' (n := n + k), ← List.append_assoc, hw] at h2
  exact ⟨_, h2⟩

/-- **C69, the relative strength index after a long pause** (binary32): after one rise and at least 150 unchanged prices `RSI(2)` is NaN until the price moves again; exactly it is 100. -/
theorem C69_rsi_pause_nan (k : Nat) :
    (∃ os, output (call (RSI 2) (series32 ([0] ++ List.replicate 151 1 ++ List.replicate k 1)) none) = .ok (vSBuf (os ++ [⟨XR.nan, rfl⟩]))) ∧
    ∃ os, output (call (RSI 2) (finSeries (([0] ++ List.replicate 151 1 ++ List.replicate k 1 : List ℚ))) none) = .ok (vSBuf (os ++ [fin 100])) := by
  constructor
  · exact rsi_stuck_out (p := 2) (n := 150) (l := [0]) (a := 1) (g := F32.of (fin 0)) (e := F32.of (fin 0)) (v := ⟨XR.nan, rfl⟩) (by norm_num) (by norm_num)
      (by decide +kernel) (by decide +kernel) (by decide +kernel) (by decide +kernel) (by decide +kernel) k
  · obtain ⟨os, h⟩ := rsi_pause_out (p := 2) (n := 149) (l := [0, 1]) (a := 1) (v := 100) (os := [fin 0, fin 0]) (by norm_num) (by norm_num) (by decide +kernel) k
    exact ⟨os, h⟩
example := C69_rsi_pause_nan 3

/-- After a rise by 3, a fall by 1 and at least 255 unchanged prices `RSI(3)` is 50 until the price moves again; exactly it is 75: the averages of both gains and losses get stuck at the smallest
positive number. -/
theorem C69_rsi_pause_stuck (k : Nat) :
    (∃ os, output (call (RSI 3) (series32 ([0, 3] ++ List.replicate 256 2 ++ List.replicate k 2)) none) = .ok (vSBuf (os ++ [F32.of (fin 50)]))) ∧
    ∃ os, output (call (RSI 3) (finSeries (([0, 3] ++ List.replicate 256 2 ++ List.replicate k 2 : List ℚ))) none) = .ok (vSBuf (os ++ [fin 75])) := by
  constructor
  · exact rsi_stuck_out (p := 3) (n := 255) (l := [0, 3]) (a := 2) (g := F32.of (fin (1 / 2 ^ 149))) (e := F32.of (fin (1 / 2 ^ 149))) (v := F32.of (fin 50)) (by norm_num) (by norm_num)
      (by decide +kernel) (by decide +kernel) (by decide +kernel) (by decide +kernel) (by decide +kernel) k
  · obtain ⟨os, h⟩ := rsi_pause_out (p := 3) (n := 254) (l := [0, 3, 2]) (a := 2) (v := 75) (os := [fin 0, fin 0, fin 0]) (by norm_num) (by norm_num) (by decide +kernel) k
    exact ⟨os, h⟩
example := C69_rsi_pause_stuck 3

end TS
