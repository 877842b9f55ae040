import Verif.Props.Mirror
/-
C61: the sum of two series.
-/
namespace TS
open PyVal XR
set_option linter.unusedSectionVars false

theorem StreamsAs.superposes {α A B : Type} [_root_.Add A] {op : Operator α} {ser : List A → Val α} {outs : List B → Val α} {y : List A → B}
    (h : StreamsAs op ser outs y) {plus : B → B → B} (e : ∀ l : List (A × A), y (l.map fun z => z.1 + z.2) = plus (y (l.map Prod.fst)) (y (l.map Prod.snd))) :
    Superposes op ser outs plus := by
  intro xs hx
  obtain ⟨sf, s0, h1⟩ := h.at' (xs := xs.map Prod.fst) (by simpa using hx)
  obtain ⟨sf', s0', h2⟩ := h.at' (xs := xs.map Prod.snd) (by simpa using hx)
  obtain ⟨sf'', s0'', h3⟩ := h.at' (xs := xs.map fun z => z.1 + z.2) (by simpa using hx)
  refine ⟨_, _, sf, s0, sf', s0', sf'', s0'', h1, h2, ?_⟩
  rw [h3]
  congr 3
  apply List.ext_getElem (by simp)
  intro i h1 h2
  simp only [List.getElem_zipWith, scan_getElem, List.nil_append, ← List.map_take, e]

/-- Laws of the addition that the averages need. -/
structure Adding (E : Type) [Arith E] : Prop where
  comm4 : ∀ a b c d : E, a + b + (c + d) = a + c + (b + d)
  zero : (Arith.zero : E) + Arith.zero = Arith.zero
  sub : ∀ a b c d : E, a + b - (c + d) = a - c + (b - d)
  mul : ∀ (a b : E) (q : ℚ), (a + b) * Arith.ofRat q = a * Arith.ofRat q + b * Arith.ofRat q
  div : ∀ (a b : E) (p : Nat), 0 < p → (a + b) / Arith.ofInt p = a / Arith.ofInt p + b / Arith.ofInt p
  sum : ∀ l : List (E × E), Arith.sum (l.map fun z => z.1 + z.2) = Arith.sum (l.map Prod.fst) + Arith.sum (l.map Prod.snd)

theorem Adding.pointwise {ι E : Type} [Arith E] (h : Adding E) : Adding (ι → E) where
  comm4 a b c d := funext fun i => h.comm4 (a i) (b i) (c i) (d i)
  zero := funext fun _ => h.zero
  sub a b c d := funext fun i => h.sub (a i) (b i) (c i) (d i)
  mul a b q := funext fun i => h.mul (a i) (b i) q
  div a b p hp := funext fun i => h.div (a i) (b i) p hp
  sum l := funext fun i => by
    have := h.sum (l.map fun z => (z.1 i, z.2 i))
    simp only [List.map_map, Function.comp_def] at this
    show Arith.sum ((l.map fun z => z.1 + z.2).map (· i)) = Arith.sum ((l.map Prod.fst).map (· i)) + Arith.sum ((l.map Prod.snd).map (· i))
    simp only [List.map_map, Function.comp_def]
    exact this

namespace Adding
variable {E : Type} [Arith E] (h : Adding E)
include h

theorem movingAvg {p : Nat} (hp : 0 < p) (l : List (E × E)) :
    movingAvg p (l.map fun z => z.1 + z.2) = TS.movingAvg p (l.map Prod.fst) + TS.movingAvg p (l.map Prod.snd) := by
  simp only [TS.movingAvg, List.length_map, window_of_map, h.sum]
  split
  · exact h.zero.symm
  · exact h.div _ _ p hp

theorem foldl {rec : E → E → E} (hr : ∀ e e' x x', rec (e + e') (x + x') = rec e x + rec e' x') (l : List (E × E)) (a b : E) :
    (l.map fun z => z.1 + z.2).foldl rec (a + b) = (l.map Prod.fst).foldl rec a + (l.map Prod.snd).foldl rec b := by
  induction l generalizing a b with
  | nil => rfl
  | cons z l ih => simp only [List.map_cons, List.foldl_cons, hr, ih]

theorem recursiveAvg {p : Nat} (hp : 0 < p) {rec : E → E → E} (hr : ∀ e e' x x', rec (e + e') (x + x') = rec e x + rec e' x') (l : List (E × E)) :
    recursiveAvg p rec (l.map fun z => z.1 + z.2) = TS.recursiveAvg p rec (l.map Prod.fst) + TS.recursiveAvg p rec (l.map Prod.snd) := by
  simp only [TS.recursiveAvg, ← List.map_drop, ← List.map_take, h.movingAvg hp, h.foldl hr]

theorem expAvg {p : Nat} (hp : 0 < p) (l : List (E × E)) :
    expAvg p (l.map fun z => z.1 + z.2) = TS.expAvg p (l.map Prod.fst) + TS.expAvg p (l.map Prod.snd) :=
  h.recursiveAvg hp (fun e e' x x' => by simp only [h.mul]; exact h.comm4 _ _ _ _) l

theorem rollAvg {p : Nat} (hp : 0 < p) (l : List (E × E)) :
    rollAvg p (l.map fun z => z.1 + z.2) = TS.rollAvg p (l.map Prod.fst) + TS.rollAvg p (l.map Prod.snd) :=
  h.recursiveAvg hp (fun e e' x x' => by
    have := h.mul e e' ((p : Int) - 1 : Int)
    show ((e + e') * Arith.ofRat (((p : Int) - 1 : Int) : ℚ) + (x + x')) / _ = _
    rw [this, h.comm4, h.div _ _ p hp]; rfl) l

theorem smaDiff {slow fast : Nat} (hs : 0 < slow) (hf : 0 < fast) (l : List (E × E)) :
    smaDiff slow fast (l.map fun z => z.1 + z.2) = TS.smaDiff slow fast (l.map Prod.fst) + TS.smaDiff slow fast (l.map Prod.snd) := by
  simp only [TS.smaDiff, List.length_map, h.movingAvg hs, h.movingAvg hf]
  rw [← h.sub]
  split
  · rw [h.zero]
  · rfl

theorem lagged (p : Nat) (l : List (E × E)) :
    lagged Arith.zero p (l.map fun z => z.1 + z.2) = TS.lagged Arith.zero p (l.map Prod.fst) + TS.lagged Arith.zero p (l.map Prod.snd) := by
  simp only [TS.lagged, ← List.map_reverse, List.getElem?_map]
  cases l.reverse[p]?
  · exact h.zero.symm
  · rfl

theorem last (l : List (E × E)) :
    (l.map fun z => z.1 + z.2).getLastD Arith.zero = (l.map Prod.fst).getLastD Arith.zero + (l.map Prod.snd).getLastD Arith.zero := by
  induction l using List.reverseRecOn with
  | nil => exact h.zero.symm
  | append_singleton l x _ => simp

theorem momentum (p : Nat) (l : List (E × E)) :
    momentum p (l.map fun z => z.1 + z.2) = TS.momentum p (l.map Prod.fst) + TS.momentum p (l.map Prod.snd) := by
  simp only [TS.momentum, List.length_map, h.lagged, h.last]
  split
  · exact h.zero.symm
  · exact h.sub _ _ _ _

theorem macdLine {slow fast : Nat} (hs : 0 < slow) (hf : 0 < fast) (l : List (E × E)) :
    macdLine slow fast (l.map fun z => z.1 + z.2) = TS.macdLine slow fast (l.map Prod.fst) + TS.macdLine slow fast (l.map Prod.snd) := by
  simp only [TS.macdLine, List.length_map, h.expAvg hs, h.expAvg hf]
  split
  · exact h.zero.symm
  · exact h.sub _ _ _ _

theorem macdHistory {slow fast : Nat} (hs : 0 < slow) (hf : 0 < fast) (l : List (E × E)) : ∃ m : List (E × E),
    macdHistory slow fast (l.map fun z => z.1 + z.2) = m.map (fun z => z.1 + z.2) ∧ TS.macdHistory slow fast (l.map Prod.fst) = m.map Prod.fst ∧
      TS.macdHistory slow fast (l.map Prod.snd) = m.map Prod.snd := by
  refine ⟨(scan (fun l => (TS.macdLine slow fast (l.map Prod.fst), TS.macdLine slow fast (l.map Prod.snd))) [] l).drop (slow - 1), ?_, ?_, ?_⟩ <;>
  · simp only [TS.macdHistory, List.map_drop]
    congr 1
    apply List.ext_getElem (by simp)
    intro i h1 h2
    simp only [List.getElem_map, scan_getElem, List.nil_append, ← List.map_take, h.macdLine hs hf]

theorem macdSignal {slow fast m : Nat} (hs : 0 < slow) (hf : 0 < fast) (hm : 0 < m) (l : List (E × E)) :
    macdSignal slow fast m (l.map fun z => z.1 + z.2) = TS.macdSignal slow fast m (l.map Prod.fst) + TS.macdSignal slow fast m (l.map Prod.snd) := by
  obtain ⟨k, e1, e2, e3⟩ := h.macdHistory hs hf l
  simp only [TS.macdSignal, List.length_map, e1, e2, e3, h.expAvg hm]
  split
  · exact h.zero.symm
  · rfl

theorem macdHist {slow fast m : Nat} (hs : 0 < slow) (hf : 0 < fast) (hm : 0 < m) (l : List (E × E)) :
    macdHist slow fast m (l.map fun z => z.1 + z.2) = TS.macdHist slow fast m (l.map Prod.fst) + TS.macdHist slow fast m (l.map Prod.snd) := by
  simp only [TS.macdHist, List.length_map, h.macdLine hs hf, h.macdSignal hs hf hm]
  split
  · exact h.zero.symm
  · exact h.sub _ _ _ _

end Adding

section
variable {K : Type} [Field K] [LinearOrder K] [IsStrictOrderedRing K] [Transc K] [FloorRing K]

theorem add_assoc' (x y z : XR K) : x + y + z = x + (y + z) := by
  show add (add x y) z = add x (add y z)
  rcases x with a | _ | _ | _ <;> rcases y with b | _ | _ | _ <;> rcases z with d | _ | _ | _ <;> simp [add, add_assoc]

theorem add_comm' (x y : XR K) : x + y = y + x := by
  show add x y = add y x
  rcases x with a | _ | _ | _ <;> rcases y with b | _ | _ | _ <;> simp [add, add_comm]

theorem add_mul_fin (x y : XR K) (k : K) : (x + y) * XR.fin k = x * XR.fin k + y * XR.fin k := by
  rw [XR.mul_comm', XR.mul_comm' x, XR.mul_comm' y]
  by_cases hk : k = 0
  · subst hk
    show mul (fin 0) (add x y) = add (mul (fin 0) x) (mul (fin 0) y)
    rcases x with a | _ | _ | _ <;> rcases y with b | _ | _ | _ <;> simp [add, mul]
  · exact scale_add hk x y

theorem XR.adding : Adding (XR K) where
  comm4 a b c d := by rw [add_assoc', add_assoc', add_left_comm' b c d]
  zero := by show add (fin ((0 : ℚ) : K)) (fin ((0 : ℚ) : K)) = fin ((0 : ℚ) : K); simp [add]
  sub a b c d := by
    show a + b + - (c + d) = a + - c + (b + - d)
    rw [neg_lin.add, add_assoc', add_assoc', add_left_comm' b]
  mul a b q := add_mul_fin a b _
  div a b p hp := by
    have hp' : ((((p : Int) : ℚ)) : K) ≠ 0 := by push_cast; exact_mod_cast hp.ne'
    show div (add a b) (fin _) = add (div a (fin _)) (div b (fin _))
    have h0 : (0 : K) < (((p : Int) : ℚ) : K) := by push_cast; exact_mod_cast hp
    rcases a with a | _ | _ | _ <;> rcases b with b | _ | _ | _ <;> simp [add, div, hp.ne', add_div]
  sum l := by
    show (l.map fun z => z.1 + z.2).foldr add (fin 0) = add ((l.map Prod.fst).foldr add (fin 0)) ((l.map Prod.snd).foldr add (fin 0))
    induction l with
    | nil => simp [add]
    | cons z l ih =>
      simp only [List.map_cons, List.foldr_cons, ih]
      show z.1 + z.2 + (_ + _) = z.1 + _ + (z.2 + _)
      rw [add_assoc', add_assoc', add_left_comm' z.2]

/-- **C61 Superposition**, exact arithmetic with infinities and NaN: for the sum of two series the sum of the outputs comes out of `SimpleMovingAverage`, -/
theorem C61_sma {p : Nat} (hp : 0 < p) (s : List Nat) : Superposes (SMA (p : Int) : Operator (XR K)) (vBuf (s := s)) (vBuf (s := s)) (· + ·) :=
  (C25_sma hp s).superposes (XR.adding.pointwise.movingAvg hp)
example := C61_sma (K := ℚ) (p := 2) (by norm_num) [2]

/-- `ExponentialMovingAverage`, -/
theorem C61_ema {p : Nat} (hp : 0 < p) (s : List Nat) : Superposes (EMA (p : Int) : Operator (XR K)) (vBuf (s := s)) (vBuf (s := s)) (· + ·) :=
  (C26_ema hp s).superposes (XR.adding.pointwise.expAvg hp)
example := C61_ema (K := ℚ) (p := 2) (by norm_num) [2]

/-- `RollingMovingAverage`, -/
theorem C61_rma {p : Nat} (hp : 0 < p) (s : List Nat) : Superposes (RMA (p : Int) : Operator (XR K)) (vBuf (s := s)) (vBuf (s := s)) (· + ·) :=
  (C27_rma hp s).superposes (XR.adding.pointwise.rollAvg hp)
example := C61_rma (K := ℚ) (p := 2) (by norm_num) [2]

/-- `MACD` in all five outputs, -/
theorem C61_macd {slow fast m : Nat} (h1 : 0 < slow) (h2 : 0 < fast) (h3 : 0 < m) (s : List Nat) :
    Superposes (MACD (slow : Int) fast m : Operator (XR K)) (vBuf (s := s)) (vBuf5 (s := s))
      (fun o o' => (o.1 + o'.1, o.2.1 + o'.2.1, o.2.2.1 + o'.2.2.1, o.2.2.2.1 + o'.2.2.2.1, o.2.2.2.2 + o'.2.2.2.2)) :=
  have h := (XR.adding (K := K)).pointwise (ι := Idx s)
  (C31_macd h1 h2 h3 s).superposes fun l => by simp only [macdAll, h.expAvg h1, h.expAvg h2, h.macdLine h1 h2, h.macdSignal h1 h2 h3, h.macdHist h1 h2 h3]
example := C61_macd (K := ℚ) (slow := 3) (fast := 2) (m := 2) (by norm_num) (by norm_num) (by norm_num) [2]

/-- `SimpleMovingAverageCrossover`, -/
theorem C61_crossover {slow fast : Nat} (hs : 0 < slow) (hf : 0 < fast) (s : List Nat) :
    Superposes (SMACrossover (slow : Int) fast : Operator (XR K)) (vBuf (s := s)) (vBuf (s := s)) (· + ·) :=
  (C32_crossover hs hf s).superposes (XR.adding.pointwise.smaDiff hs hf)
example := C61_crossover (K := ℚ) (slow := 3) (fast := 2) (by norm_num) (by norm_num) [2]

/-- `Lag`, -/
theorem C61_lag {p : Nat} (hp : 0 < p) (s : List Nat) : Superposes (Lag (p : Int) : Operator (XR K)) (vBuf (s := s)) (vBuf (s := s)) (· + ·) :=
  (C17_lag_streams hp s).superposes (XR.adding.pointwise.lagged p)
example := C61_lag (K := ℚ) (p := 2) (by norm_num) [2]

/-- and `Momentum`. -/
theorem C61_momentum {p : Nat} (hp : 0 < p) (s : List Nat) : Superposes (Momentum (p : Int) : Operator (XR K)) (vBuf (s := s)) (vBuf (s := s)) (· + ·) :=
  (C19_momentum_streams hp s).superposes (XR.adding.pointwise.momentum p)

end

example : output (call (EMA 2) (series [1, 2, 6]) none) = .ok (series [0, 3 / 2, 9 / 2]) ∧ output (call (EMA 2) (series [3, -1, 2]) none) = .ok (series [0, 1, 5 / 3]) ∧
    output (call (EMA 2) (series [4, 1, 8]) none) = .ok (series [0, 5 / 2, 37 / 6]) := ⟨by decide +kernel, by decide +kernel, by decide +kernel⟩

end TS
