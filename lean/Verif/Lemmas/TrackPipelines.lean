import Verif.Lemmas.TrackMarket2
/-
The operators that are built from others with Compose and Join.
-/
namespace TS
open PyVal
variable {α : Type} [TFNum α] {A : Type}

omit [TFNum α] in
theorem scan_getLastD (d : A) (h : List A) : scan (fun h => h.getLastD d) [] h = h := by
  apply List.ext_getElem (by simp)
  intro i h1 h2
  have : h.take (i + 1) ≠ [] := by
    rw [← List.length_pos_iff, List.length_take]; omega
  rw [scan_getElem, List.nil_append, List.getLastD_eq_getLast?, List.getLast?_eq_some_getLast this, Option.getD_some, List.getLast_eq_getElem]
  simp [List.getElem_take]
  congr 1
  omega

omit [TFNum α] in
theorem Tracks.self {op : Operator α} {V : List A → Prop} {enc : A → Val α} {out st : List A → Val α} (T : Tracks op V enc out st) (d : A) :
    Follows op V (fun h => enc (h.getLastD d)) out st := by
  have := T.follows (A := A) (fun h => h.getLastD d) (V' := V) (fun h hv => by rwa [scan_getLastD]) (x := fun h => enc (h.getLastD d)) (fun _ _ => rfl)
  simpa only [scan_getLastD] using this

omit [TFNum α] in
theorem Follows.vtrue {op : Operator α} {V : List A → Prop} {x out st : List A → Val α} (F : Follows op Any x out st) : Follows op V x out st :=
  ⟨fun a _ => F.fresh a trivial, fun h a _ => F.next h a trivial, F.out_ok, F.st_ok⟩

/-- the zero row -/
abbrev zrow (s : List Nat) : Idx s → α := Arith.zero

section
variable {s : List Nat}

omit [TFNum α] in
theorem floats_vF (v : Idx s → α) : Floats (vF v) := by intro l hl; simp [flatten] at hl; exact ⟨_, hl⟩

theorem setDuring_rows {V : List A → Prop} (u : List A → Idx s → α) (c : α) (n : Int) :
    Follows (SetDuring (.f (Tensor.scalar c)) n) V (fun h => vF (u h))
      (fun h => vF (if (h.length : Int) ≤ n then (fun _ => c) else u h)) (fun h => .tup [vI h.length]) :=
  (setDuring_follows (float_ok u) (fun h _ => floats_vF _) c n).congr (fun h _ => by split <;> rfl) (fun _ => rfl)

variable {slow fast : Nat}

/-- the state of the moving average crossover -/
def crossoverState (slow fast : Nat) (h : List (Idx s → α)) : Val α :=
  .tup [PyVal.unit, .tup [.tup [bufState fast h, .tup [vI h.length]], bufState slow h], PyVal.unit]

theorem crossover_tracks (hs : 0 < slow) (hf : 0 < fast) (s : List Nat) :
    Tracks (SMACrossover (slow : Int) fast : Operator α) Any (fun x : Idx s → α => vF x) (fun h => vF (smaDiff slow fast h)) (crossoverState slow fast) := by
  have hx : ∀ h : List (Idx s → α), h ≠ [] → (vF (h.getLastD (zrow s)) : Val α).WF ∧ Tensors (vF (h.getLastD (zrow s)) : Val α) :=
    fun h _ => ⟨by simp, by simp [Tensors]⟩
  have F1 : Follows (Compose [SetDuring (.f (Tensor.scalar Arith.zero)) ((slow : Int) - 1), SMA fast] : Operator α) Any
      (fun h : List (Idx s → α) => vF (h.getLastD (zrow s))) _ _ :=
    ChainFollows.compose (.cons ((sma_tracks hf s).self (zrow s)) (.cons (setDuring_rows _ _ _) (.nil _))) (by simp) hx
  have F2 := BankFollows.join (.cons F1 (.cons ((sma_tracks (α := α) hs s).self (zrow s)) .nil)) (by
    intro h hh x hx'
    simp at hx'
    subst hx'
    exact ⟨by simp, by simp [Tensors]⟩)
  have F3 := ChainFollows.compose (ops := [Sub, Join [Compose [SetDuring (.f (Tensor.scalar Arith.zero)) ((slow : Int) - 1), SMA fast], SMA slow], Fork 2])
    (.cons (fork2_follows (α := α) (V := Any) (s := s) fun h : List (Idx s → α) => h.getLastD (zrow s)) (.cons F2
      (.cons (sub_follows (V := Any) _ _) (.nil _)))) (by simp) hx
  refine (F3.tracks (fun h a => by simp) (fun a => ⟨by simp, by simp [Tensors]⟩)).congr (fun h hh => ?_) (fun h => rfl)
  simp only [smaDiff]
  by_cases hl : h.length < slow
  · rw [if_pos hl, if_pos (by omega)]; rfl
  · rw [if_neg hl, if_neg (by omega)]

/-- the state of momentum -/
def momentumState (p : Nat) (h : List (Idx s → α)) : Val α :=
  .tup [PyVal.unit, .tup [PyVal.unit, vBuf (padded Arith.zero p h)], PyVal.unit, .tup [vI h.length]]

theorem momentum_tracks {p : Nat} (hp : 0 < p) (s : List Nat) :
    Tracks (Momentum (p : Int) : Operator α) Any (fun x : Idx s → α => vF x) (fun h => vF (momentum p h)) (momentumState p) := by
  have hx : ∀ h : List (Idx s → α), h ≠ [] → (vF (h.getLastD (zrow s)) : Val α).WF ∧ Tensors (vF (h.getLastD (zrow s)) : Val α) :=
    fun h _ => ⟨by simp, by simp [Tensors]⟩
  have F2 := BankFollows.join (.cons (identity_follows (α := α) (V := Any) (s := s) fun h : List (Idx s → α) => h.getLastD (zrow s))
    (.cons ((lag_tracks (α := α) hp s).self (zrow s)) .nil)) (by
    intro h hh x hx'
    simp at hx'
    subst hx'
    exact ⟨by simp, by simp [Tensors]⟩)
  have F3 := ChainFollows.compose (ops := [SetDuring (.f (Tensor.scalar Arith.zero)) (p : Int), Sub, Join [Identity, Lag (p : Int)], Fork 2])
    (.cons (fork2_follows (α := α) (V := Any) (s := s) fun h : List (Idx s → α) => h.getLastD (zrow s)) (.cons F2
      (.cons (sub_follows (V := Any) _ _) (.cons (setDuring_rows _ _ _) (.nil _))))) (by simp) hx
  refine (F3.tracks (fun h a => by simp) (fun a => ⟨by simp, by simp [Tensors]⟩)).congr (fun h hh => ?_) (fun h => rfl)
  simp only [momentum]
  by_cases hl : h.length ≤ p
  · rw [if_pos hl, if_pos (by omega)]; rfl
  · rw [if_neg hl, if_neg (by omega)]


/-- the state of volatility -/
def volatilityState (m r : Nat) (h : List α) : Val α :=
  .tup [retState r h, bufState m ((scan (growth (fun v p => Arith.log (v / p)) r) [] h).map (pt (α := α))), .tup [vI h.length]]

theorem volatility_tracks (hz : TFNum.eq (Arith.zero : α) (Arith.ofRat 0) = true) {m r : Nat} (hm : 0 < m) (hr : 0 < r) :
    Tracks (Volatility (m : Int) r : Operator α) Any vS (fun h => vS (volatility m r h)) (volatilityState m r) := by
  have hx : ∀ h : List α, h ≠ [] → (vS (h.getLastD Arith.zero) : Val α).WF ∧ Tensors (vS (h.getLastD Arith.zero) : Val α) :=
    fun h _ => ⟨by simp, by simp [Tensors]⟩
  have F3 := ChainFollows.compose (ops := [SetDuring (.f (Tensor.scalar Arith.zero)) (Max.max (m : Int) r), MSD (m : Int), LogReturn (r : Int)])
    (.cons ((return_tracks (α := α) hz (fun v p => Arith.log (v / p)) hr).self Arith.zero)
      (.cons ((msd_tracks (α := α) hm []).follows (A := α) (V' := Any) (fun h => pt (growth (fun v p => Arith.log (v / p)) r h)) (fun _ _ => trivial) (fun _ _ => rfl))
      (.cons (setDuring_rows (s := []) _ _ _) (.nil _)))) (by simp) hx
  refine (F3.tracks (fun h a => by simp) (fun a => ⟨by simp, by simp [Tensors]⟩)).congr (fun h hh => ?_) (fun h => ?_)
  · simp only [volatility]
    by_cases hl : h.length ≤ max m r
    · rw [if_pos hl, if_pos (by omega)]
    · rw [if_neg hl, if_neg (by omega), ← scan_map pt, movingStd_pt]
      rfl
  · simp [volatilityState, scan_map]

/-! ### Signals -/

omit [TFNum α] in
theorem ints_vIs (v : Idx s → Int) : Ints (vIs v : Val α) := by intro l hl; simp [flatten] at hl; exact ⟨_, hl⟩

omit [TFNum α] in
theorem setDuring_ints {V : List A → Prop} (u : List A → Idx s → Int) (c : Int) (n : Int) :
    Follows (SetDuring (.i (Tensor.scalar c)) n : Operator α) V (fun h => vIs (u h))
      (fun h => vIs (if (h.length : Int) ≤ n then (fun _ => c) else u h)) (fun h => .tup [vI h.length]) :=
  (setDuring_follows_int (x := fun h => vIs (u h)) (ty := .leaf (.int, s)) (fun h _ => ⟨by simp, rfl⟩) (fun h _ => ints_vIs _) c n).congr (fun h _ => by split <;> rfl) (fun _ => rfl)

theorem smaDiff_apply (slow fast : Nat) (h : List (Idx s → α)) (c : Idx s) : smaDiff slow fast h c = smaDiff slow fast (h.map (· c)) := by
  simp only [smaDiff, sub_apply', movingAvg_apply, List.length_map]
  split <;> simp [zero_apply, movingAvg_apply]

omit [TFNum α] in
theorem scan_coord {ι E F : Type} (y : List (ι → E) → ι → F) (y' : List E → F) (c : ι) (hy : ∀ h, y h c = y' (h.map (· c))) (h : List (ι → E)) :
    (scan y [] h).map (· c) = scan y' [] (h.map (· c)) := by
  simp [scan, hy, Function.comp_def]

/-- the state of the moving average crossover signal -/
def smaSignalState (slow fast : Nat) (h : List (Idx s → α)) : Val α :=
  .tup [crossoverState slow fast h, zcState (scan (smaDiff slow fast) [] h), .tup [vI h.length]]

theorem smaSignal_tracks (hs : 0 < slow) (hf : 0 < fast) (s : List Nat) :
    Tracks (SMACrossoverSignal (slow : Int) fast : Operator α) Any (fun x : Idx s → α => vF x)
      (fun h => vIs fun c => smaSignal slow fast (h.map (· c))) (smaSignalState slow fast) := by
  have hx : ∀ h : List (Idx s → α), h ≠ [] → (vF (h.getLastD (zrow s)) : Val α).WF ∧ Tensors (vF (h.getLastD (zrow s)) : Val α) :=
    fun h _ => ⟨by simp, by simp [Tensors]⟩
  have F3 := ChainFollows.compose (ops := [SetDuring (.i (Tensor.scalar 0)) (slow : Int), ZeroCrossoverSignal, SMACrossover (slow : Int) fast])
    (.cons ((crossover_tracks (α := α) hs hf s).self (zrow s))
      (.cons ((zc_tracks (α := α) (s := s)).follows (A := Idx s → α) (V' := Any) (smaDiff slow fast) (fun _ _ => trivial) (fun _ _ => rfl))
      (.cons (setDuring_ints _ _ _) (.nil _)))) (by simp) hx
  refine (F3.tracks (fun h a => by simp) (fun a => ⟨by simp, by simp [Tensors]⟩)).congr (fun h hh => ?_) (fun h => rfl)
  congr 3
  funext c
  simp only [smaSignal, List.length_map]
  by_cases hl : h.length ≤ slow
  · rw [if_pos hl, if_pos (by omega)]
  · rw [if_neg hl, if_neg (by omega)]
    simp only [scan_coord (smaDiff slow fast) (smaDiff slow fast) c (fun h => smaDiff_apply slow fast h c)]

/-- the state of the macd signal -/
def macdTradeState (slow fast m : Nat) (h : List (Idx s → α)) : Val α :=
  .tup [macdState slow fast m h, PyVal.unit, zcState (scan (macdHist slow fast m) [] h), .tup [vI h.length]]

theorem macdTrade_tracks {m : Nat} (hs : 0 < slow) (hf : 0 < fast) (hm : 0 < m) (s : List Nat) :
    Tracks (MACDSignal (slow : Int) fast m : Operator α) Any (fun x : Idx s → α => vF x)
      (fun h => vIs fun c => macdTrade slow fast m (h.map (· c))) (macdTradeState slow fast m) := by
  have hx : ∀ h : List (Idx s → α), h ≠ [] → (vF (h.getLastD (zrow s)) : Val α).WF ∧ Tensors (vF (h.getLastD (zrow s)) : Val α) :=
    fun h _ => ⟨by simp, by simp [Tensors]⟩
  have Fs : Follows (Select (.int 4) : Operator α) Any (fun h => macdOut slow fast m h) (fun h => vF (s := s) (macdHist slow fast m h)) (fun _ => PyVal.unit) :=
    stateless_follows (fun h hh => ⟨by simp [macdOut, WF_tup], by simp [macdOut, Tensors, flatten]⟩)
      (fun h hh => by simp [macdOut, unpackArgs, PyVal.tup, pyIndex]) (ty := .leaf (.float, s)) (fun h _ => ⟨by simp, rfl⟩)
  have F3 := ChainFollows.compose (ops := [SetDuring (.i (Tensor.scalar 0)) ((slow : Int) + m - 2), ZeroCrossoverSignal, Select (.int 4), MACD (slow : Int) fast m])
    (.cons ((macd_tracks (α := α) hs hf hm s).self (zrow s)) (.cons Fs
      (.cons ((zc_tracks (α := α) (s := s)).follows (A := Idx s → α) (V' := Any) (macdHist slow fast m) (fun _ _ => trivial) (fun _ _ => rfl))
      (.cons (setDuring_ints _ _ _) (.nil _))))) (by simp) hx
  refine (F3.tracks (fun h a => by simp) (fun a => ⟨by simp, by simp [Tensors]⟩)).congr (fun h hh => ?_) (fun h => rfl)
  congr 3
  funext c
  simp only [macdTrade, List.length_map]
  by_cases hl : h.length + 2 ≤ slow + m
  · rw [if_pos hl, if_pos (by omega)]
  · rw [if_neg hl, if_neg (by omega)]
    simp only [scan_coord (macdHist slow fast m) (macdHist slow fast m) c (fun h => macdHist_apply slow fast m h c)]

end
end TS
