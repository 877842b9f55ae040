import Verif.Props.Overflow3
/-
C87, continued: autocorrelation, MACD, average true range.
-/
namespace TS
open PyVal
variable {α : Type} [TFNum α]

section
variable {p lag : Nat} {s : List Nat}

omit [TFNum α] in
theorem int32_inv {op : Operator α} {x : Val α} {st : Option (Val α)} {r : Step α} (h : op.int32.forwardStep x st = .ok r) :
    ∃ o n i, op.forwardStep x st = .ok (o, n, i) ∧ r = (wrapVal o, wrapVal n, wrapVal i) := by
  simp only [Operator.int32] at h
  obtain ⟨⟨o, n, i⟩, h1, h2⟩ := bind_eq_ok.1 h
  exact ⟨o, n, i, h1, (Except.ok.inj h2).symm⟩

theorem auto_at {x : Idx s → α} {st : Option (Val α)} (hst : ∀ t ∈ st, t.WF ∧ Tensors t) {o n i : Val α}
    (h : (CrossCorrelation (p : Int) lag : Operator α).forwardStep (.tup [vF x, vF x]) st = .ok (o, n, i)) :
    (AutoCorrelation (p : Int) lag : Operator α).forwardStep (vF x) (st.map fun t => .tup [t]) = .ok (o, .tup [n], .tup [i]) := by
  have c : call (CrossCorrelation (p : Int) lag : Operator α) (.tup [vF x, vF x]) st false = .ok (o, n, i) := by
    rw [← h]
    cases st with
    | none => simp [call]
    | some t => simp [call, toTensors_ok (hst t rfl).1 (hst t rfl).2]
  cases st with
  | none => simp [AutoCorrelation, streamable, unpackArgs, arity, c]
  | some t => simp [AutoCorrelation, streamable, unpackArgs, arity, c]

theorem auto32 {x : Idx s → α} {st : Option (Val α)} (hst : ∀ t ∈ st, t.WF ∧ Tensors t) {o n i : Val α}
    (h : (CrossCorrelation (p : Int) lag : Operator α).int32.forwardStep (.tup [vF x, vF x]) st = .ok (o, n, i)) :
    (AutoCorrelation (p : Int) lag : Operator α).int32.forwardStep (vF x) (st.map fun t => .tup [t]) = .ok (o, .tup [n], .tup [i]) := by
  obtain ⟨o', n', i', h1, h2⟩ := int32_inv h
  rw [int32_step (auto_at hst h1)]
  obtain ⟨rfl, rfl, rfl⟩ := by simpa only [Prod.mk.injEq] using h2
  rfl

theorem crossState32_ok (h : List ((Idx s → α) × (Idx s → α))) : (crossState32 p lag h).WF ∧ Tensors (crossState32 p lag h) :=
  ⟨by simp [crossState32, corrState, WF_tup], by simp [crossState32, corrState, Tensors, flatten, flattens]⟩

theorem auto32_tracks (hp : 0 < p) (hl : 0 < lag) : Tracks (AutoCorrelation (p : Int) lag : Operator α).int32 (fun h => h.length ≤ 2 ^ 32)
    (fun x : Idx s → α => vF x) (fun h => vF (if 2 ^ 31 < h.length then Arith.zero else crossOf p lag (h.map fun x => (x, x))))
    (fun h => .tup [crossState32 p lag (h.map fun x => (x, x))]) := by
  have T := cross32_tracks (α := α) (s := s) hp hl
  refine ⟨fun x hV => ?_, fun h x hV => ?_, fun x => ⟨by simp, by simp [Tensors]⟩, ⟨.leaf (.float, s), fun h _ => ⟨by simp, rfl⟩⟩, ?_⟩
  · exact auto32 (st := none) (by simp) (T.first (x, x) (by simp))
  · have := auto32 (st := some _) (by intro t ht; cases ht; exact crossState32_ok _) (T.next (h.map fun x => (x, x)) (x, x) (by simpa using hV))
    simpa using this
  · obtain ⟨ty, hty⟩ := T.st_ok
    exact ⟨.tup [ty], fun h => ⟨by simp [WF_tup, (hty _).1], hasType_tup (.cons (hty _).2 .nil)⟩⟩

/-- The same for the autocorrelation. -/
theorem C87_autoCorrelation (hp : 0 < p) (hl : 0 < lag) {xs : List (Idx s → α)} (hx : xs ≠ []) (hb : xs.length ≤ 2 ^ 32) :
    ∃ os sf s0, call (AutoCorrelation (p : Int) lag).int32 (vBuf xs) none = .ok (vBuf os, sf, s0) ∧ ∃ _ : os.length = xs.length, ∀ i (hi : i < xs.length),
      os[i] = if 2 ^ 31 ≤ i then Arith.zero else crossOf p lag ((xs.take (i + 1)).map fun x => (x, x)) := by
  have hz := isSeries_vBuf (scan (fun h => if 2 ^ 31 < h.length then Arith.zero else crossOf p lag (h.map fun x => (x, x))) [] xs)
  rw [scan_map] at hz
  refine ⟨_, _, _, (auto32_tracks hp hl).eval hx (fun k _ hk => ?_) (rows_ok xs).1 (rows_ok xs).2.1 (rows_ok xs).2.2 hz, by simp, fun i hi => ?_⟩
  · simp only [List.length_take]; omega
  · simp only [scan_getElem, List.nil_append, List.length_take, Nat.min_eq_left (show i + 1 ≤ xs.length from hi), Nat.lt_succ_iff]
example := C87_autoCorrelation (α := XR ℚ) (p := 2) (lag := 1) (by norm_num) (by norm_num) (xs := List.replicate (2 ^ 31 + 5) (pt (XR.fin 1))) (by
  rw [← List.length_pos_iff, List.length_replicate]; norm_num) (by rw [List.length_replicate]; norm_num)

/-! ### MACD -/

/-- the state of an exponential average: counter, value, samples seen by the inner average -/
def emaSt (p : Nat) (n : Int) (e : Idx s → α) (g : List (Idx s → α)) : Val α := .tup [vI n, vF e, bufState p g]

/-- the value of `EMA` from a state -/
def emaVal (p : Nat) (n : Int) (e : Idx s → α) (g : List (Idx s → α)) (x : Idx s → α) : Idx s → α :=
  if n < (p : Int) then movingAvg p (g ++ [x]) else x * Arith.ofRat (2 / ((p : ℚ) + 1)) + e * Arith.ofRat (1 - 2 / ((p : ℚ) + 1))

/-- the state after it -/
def emaNext (p : Nat) (n : Int) (e : Idx s → α) (g : List (Idx s → α)) (x : Idx s → α) : Val α :=
  emaSt p (n + 1) (emaVal p n e g x) (if n < (p : Int) then g ++ [x] else g)

theorem emaSt_ok (p : Nat) (n : Int) (e : Idx s → α) (g : List (Idx s → α)) : (emaSt p n e g).WF ∧ HasType (emaSt p n e g) (.tup [.leaf .int, .leaf .float, .tup [.leaf .int, .leaf .float]]) :=
  ⟨by simp [emaSt, bufState, WF_tup], HasType_iff.2 rfl⟩

theorem ema_call {p : Nat} (hp : 0 < p) (n : Int) (e x : Idx s → α) (g : List (Idx s → α)) :
    call (EMA (p : Int)) (vF x) (some (emaSt p n e g)) false = .ok (vF (emaVal p n e g x), emaNext p n e g x, emaSt p n e g) := by
  have := toTensors_ok (emaSt_ok p n e g).1 (by simp [emaSt, bufState, Tensors, flatten, flattens])
  simp only [call, toTensors_f, this, pure, Except.pure, bind, Except.bind]
  exact ema_at hp n x e g

theorem macd_at {slow fast m : Nat} (h1 : 0 < slow) (h2 : 0 < fast) (h3 : 0 < m) (n n1 n2 n3 : Int) (e1 e2 e3 x : Idx s → α) (g1 g2 g3 : List (Idx s → α))
    {a b L S H : Idx s → α} (ha : emaVal slow n1 e1 g1 x = a) (hb : emaVal fast n2 e2 g2 x = b) (hL : macdDiff b a n ((slow : Int) - 1) = L)
    (hS : (if n < (slow : Int) - 1 then Arith.zero else emaVal m n3 e3 g3 L) = S) (hH : macdDiff L S n ((slow : Int) + m - 2) = H) :
    (MACD (slow : Int) fast m : Operator α).forwardStep (vF x) (some (.tup [vI n, emaSt slow n1 e1 g1, emaSt fast n2 e2 g2, emaSt m n3 e3 g3])) =
      .ok (.tup [vF a, vF b, vF L, vF S, vF H],
        .tup [vI (n + 1), emaNext slow n1 e1 g1 x, emaNext fast n2 e2 g2 x, if n < (slow : Int) - 1 then emaSt m n3 e3 g3 else emaNext m n3 e3 g3 L],
        .tup [vI n, emaSt slow n1 e1 g1, emaSt fast n2 e2 g2, emaSt m n3 e3 g3]) := by
  have c : tfCond (decide (n < (slow : Int) - 1)) (.node .tuple [vF (s := s) fun _ => Arith.zero, emaSt m n3 e3 g3])
      (.node .tuple [vF (emaVal m n3 e3 g3 L), emaNext m n3 e3 g3 L]) =
      .ok (.node .tuple [vF S, if n < (slow : Int) - 1 then emaSt m n3 e3 g3 else emaNext m n3 e3 g3 L]) := by
    refine (tfCond_tup2 (tx := .leaf .float) (by simp) (emaSt_ok _ _ _ _).1 (by simp) (emaSt_ok _ _ _ _).1
      (HasType_iff.2 rfl) (emaSt_ok _ _ _ _).2 (HasType_iff.2 rfl) (emaSt_ok _ _ _ _).2 (by simp [flatten])).trans ?_
    rw [← hS]
    by_cases h : n < (slow : Int) - 1 <;> simp [h] <;> rfl
  simp [MACD, streamable, unpackArgs, arity, ema_call h1, ema_call h2, ema_call h3, ha, hb, hL]
  simp at c
  simp [c, hH]

theorem ema_wrap {p : Nat} (h0 : 0 < p) (hp : p < 2 ^ 31) {h : List (Idx s → α)} (x : Idx s → α) (hl : h.length + 1 + p < 2 ^ 32) :
    emaVal p (wrap32 h.length) (overflown p (expAvg p) h) (seen p h) x = overflown p (expAvg p) (h ++ [x]) ∧
    wrapVal (emaNext p (wrap32 h.length) (overflown p (expAvg p) h) (seen p h) x) = avgState32 p (expAvg p) (h ++ [x]) ∧
    wrapVal (avgState32 p (expAvg p) h) = avgState32 p (expAvg p) h := by
  have := avg32_next (ema_at (α := α) h0) hp x hl
  obtain ⟨o, n, i, a, b⟩ := int32_inv this
  have e := (ema_at h0 (wrap32 h.length) x (overflown p (expAvg p) h) (seen p h)).symm.trans a
  simp only [Except.ok.injEq, Prod.mk.injEq] at e b
  obtain ⟨rfl, rfl, rfl⟩ := e
  refine ⟨?_, b.2.1.symm, b.2.2.symm⟩
  have h := b.1
  rw [wrapVal_leaf, Leaf.wrap32_f] at h
  simp only [PyVal.leaf.injEq, Leaf.f.injEq, Tensor.mk.injEq, heq_eq_eq, true_and] at h
  exact h.symm

/-- the state of `MACD` with int32 counters -/
def macdState32 (slow fast m : Nat) (h : List (Idx s → α)) : Val α :=
  .tup [vI (wrap32 h.length), avgState32 slow (expAvg slow) h, avgState32 fast (expAvg fast) h,
    avgState32 m (expAvg m) (macdHistory slow fast (h.take (2 ^ 31)))]

/-- the outputs of `MACD` with int32 counters -/
def macdOut32 (slow fast m : Nat) (h : List (Idx s → α)) : Val α :=
  if 2 ^ 31 < h.length then .tup [vF (overflown slow (expAvg slow) h), vF (overflown fast (expAvg fast) h), vF (Arith.zero : Idx s → α), vF (Arith.zero : Idx s → α),
    vF (Arith.zero : Idx s → α)] else macdOut slow fast m h

theorem length_macdHistory {E : Type} [Arith E] {slow fast : Nat} (h : List E) : (macdHistory slow fast h).length = h.length - (slow - 1) := by simp [macdHistory]

theorem macd_int32_at {slow fast m : Nat} (h1 : 0 < slow) (h2 : 0 < fast) (h3 : 0 < m) {n n1 n2 n3 : Int} {e1 e2 e3 x : Idx s → α} {g1 g2 g3 : List (Idx s → α)}
    {a b L S H : Idx s → α} (ha : emaVal slow n1 e1 g1 x = a) (hb : emaVal fast n2 e2 g2 x = b) (hL : macdDiff b a n ((slow : Int) - 1) = L)
    (hS : (if n < (slow : Int) - 1 then Arith.zero else emaVal m n3 e3 g3 L) = S) (hH : macdDiff L S n ((slow : Int) + m - 2) = H)
    {S1 S2 S3 N1 N2 N3 : Val α} (e1' : S1 = emaSt slow n1 e1 g1) (e2' : S2 = emaSt fast n2 e2 g2) (e3' : S3 = emaSt m n3 e3 g3)
    (hn : wrap32 n = n) (i1 : wrapVal S1 = S1) (i2 : wrapVal S2 = S2) (i3 : wrapVal S3 = S3)
    (w1 : wrapVal (emaNext slow n1 e1 g1 x) = N1) (w2 : wrapVal (emaNext fast n2 e2 g2 x) = N2)
    (w3 : (if n < (slow : Int) - 1 then S3 else wrapVal (emaNext m n3 e3 g3 L)) = N3) :
    (MACD (slow : Int) fast m : Operator α).int32.forwardStep (vF x) (some (.tup [vI n, S1, S2, S3])) =
      .ok (.tup [vF a, vF b, vF L, vF S, vF H], .tup [vI (wrap32 (n + 1)), N1, N2, N3], .tup [vI n, S1, S2, S3]) := by
  have tup : ∀ (n : Int) (a b c : Val α), wrapVal (.tup [vI n, a, b, c]) = .tup [vI (wrap32 n), wrapVal a, wrapVal b, wrapVal c] := fun _ _ _ _ => rfl
  subst e1' e2' e3'
  rw [int32_step (macd_at h1 h2 h3 n _ _ _ _ _ _ x _ _ _ ha hb hL hS hH), tup, tup, hn, i1, i2, i3, w1, w2, ← w3]
  by_cases h : n < (slow : Int) - 1
  · rw [if_pos h, if_pos h, i3]; rfl
  · rw [if_neg h, if_neg h]; rfl

theorem wrap_emaSt {p : Nat} {n : Int} {e : Idx s → α} {g : List (Idx s → α)} (hg : g.length < 2 ^ 31) : wrapVal (emaSt p n e g) = emaSt p (wrap32 n) e g := by
  show PyVal.tup [vI (wrap32 n), vF e, .tup [vI (wrap32 g.length), vBuf _]] = _
  rw [wrap32_of_small (n := g.length) (by omega)]
  rfl

theorem avgState32_eq (p : Nat) (y : List (Idx s → α) → Idx s → α) (h : List (Idx s → α)) : avgState32 p y h = emaSt p (wrap32 h.length) (overflown p y h) (seen p h) := rfl

theorem macd32_next {slow fast m : Nat} (h1 : 0 < slow) (h2 : 0 < fast) (h3 : 0 < m) (b1 : slow < 2 ^ 31) (b2 : fast < 2 ^ 31) (b3 : m < 2 ^ 31)
    (h : List (Idx s → α)) (x : Idx s → α) (l1 : h.length + 1 + slow < 2 ^ 32) (l2 : h.length + 1 + fast < 2 ^ 32) :
    (MACD (slow : Int) fast m : Operator α).int32.forwardStep (vF x) (some (macdState32 slow fast m h)) =
      .ok (macdOut32 slow fast m (h ++ [x]), macdState32 slow fast m (h ++ [x]), macdState32 slow fast m h) := by
  obtain ⟨v1, w1, i1⟩ := ema_wrap h1 b1 x l1
  obtain ⟨v2, w2, i2⟩ := ema_wrap h2 b2 x l2
  have hlen : wrap32 (wrap32 h.length + 1) = wrap32 ((h ++ [x]).length : Int) := by simp
  have z : ∀ (a b : Idx s → α) (n k : Int), n < k → macdDiff a b n k = Arith.zero := fun a b n k hh => by rw [macdDiff, if_pos hh]; rfl
  by_cases hh : 2 ^ 31 ≤ h.length
  · have kl : (macdHistory slow fast (h.take (2 ^ 31))).length ≤ 2 ^ 31 := by rw [length_macdHistory, List.length_take]; omega
    have i3 : wrapVal (avgState32 m (expAvg m) (macdHistory slow fast (h.take (2 ^ 31)))) = avgState32 m (expAvg m) (macdHistory slow fast (h.take (2 ^ 31))) := by
      rw [avgState32_eq, wrap_emaSt (by simp only [seen, List.length_append, List.length_take, List.length_drop]; omega), wrap32_wrap32]
    have hn : wrap32 h.length < 0 := by
      have := (wrap32_lt (c := 0) (i := h.length)).2 (.inr (by rw [Nat.mod_eq_of_lt (by omega)]; exact hh))
      simpa using this
    have c1 : wrap32 h.length < (slow : Int) - 1 := by omega
    rw [macdState32, macd_int32_at h1 h2 h3 v1 v2 (z _ _ _ _ c1) (if_pos c1) (z _ _ _ _ (by omega)) (avgState32_eq _ _ _) (avgState32_eq _ _ _) (avgState32_eq _ _ _)
      (wrap32_wrap32 _) i1 i2 i3 w1 w2 (if_pos c1), hlen, macdOut32, if_pos (by simp; omega), macdState32, List.take_append_of_le_length hh]
  · have t1 : h.take (2 ^ 31) = h := List.take_of_length_le (by omega)
    have t2 : (h ++ [x]).take (2 ^ 31) = h ++ [x] := List.take_of_length_le (by simp; omega)
    have hn : wrap32 h.length = h.length := wrap32_of_small (by omega)
    have kl := length_macdHistory (slow := slow) (fast := fast) h
    obtain ⟨v3, w3, i3⟩ := ema_wrap h3 b3 (h := macdHistory slow fast h) (macdLine slow fast (h ++ [x])) (by omega)
    have o : ∀ (p : Nat) (k : List (Idx s → α)), k.length ≤ 2 ^ 31 → overflown p (expAvg p) k = expAvg p k := fun p k hk => if_pos hk
    have hl1 : (h ++ [x]).length ≤ 2 ^ 31 := by simp; omega
    rw [o _ _ hl1] at v1 v2
    have line : macdDiff (expAvg fast (h ++ [x])) (expAvg slow (h ++ [x])) (wrap32 h.length) ((slow : Int) - 1) = macdLine slow fast (h ++ [x]) := by
      rw [hn, macdDiff_eq (q := (h ++ [x]).length < slow) (by simp; omega)]; rfl
    have kl' := length_macdHistory (slow := slow) (fast := fast) (h ++ [x])
    have hc := macdHistory_concat (slow := slow) (fast := fast) h x
    have sig : (if wrap32 h.length < (slow : Int) - 1 then Arith.zero else
        emaVal m (wrap32 (macdHistory slow fast h).length) (overflown m (expAvg m) (macdHistory slow fast h)) (seen m (macdHistory slow fast h)) (macdLine slow fast (h ++ [x]))) =
        macdSignal slow fast m (h ++ [x]) := by
      rw [hn, v3, macdSignal, hc]
      by_cases hs : h.length + 1 < slow
      · rw [if_pos (by omega), if_pos (by simp; omega)]
      · rw [if_neg (by omega), if_neg (by simp; omega), if_neg hs, o]
        rw [if_neg hs] at hc
        rw [← hc, kl']; omega
    have st3 : (if wrap32 h.length < (slow : Int) - 1 then avgState32 m (expAvg m) (macdHistory slow fast h) else
        wrapVal (emaNext m (wrap32 (macdHistory slow fast h).length) (overflown m (expAvg m) (macdHistory slow fast h)) (seen m (macdHistory slow fast h)) (macdLine slow fast (h ++ [x])))) =
        avgState32 m (expAvg m) (macdHistory slow fast (h ++ [x])) := by
      rw [hn, w3, hc]
      by_cases hs : h.length + 1 < slow
      · rw [if_pos (by omega), if_pos hs]
      · rw [if_neg (by omega), if_neg hs]
    have hist : macdDiff (macdLine slow fast (h ++ [x])) (macdSignal slow fast m (h ++ [x])) (wrap32 h.length) ((slow : Int) + m - 2) = macdHist slow fast m (h ++ [x]) := by
      rw [hn, macdDiff_eq (q := (h ++ [x]).length + 1 < slow + m) (by simp; omega)]; rfl
    rw [macdState32, t1, macd_int32_at h1 h2 h3 v1 v2 line sig hist (avgState32_eq _ _ _) (avgState32_eq _ _ _) (avgState32_eq _ _ _)
      (wrap32_wrap32 _) i1 i2 i3 w1 w2 st3, hlen, macdOut32, if_neg (by omega), macdState32, t2, macdOut]

theorem macd32_none {slow fast m : Nat} (h1 : 0 < slow) (h2 : 0 < fast) (h3 : 0 < m) (x : Idx s → α) :
    (MACD (slow : Int) fast m : Operator α).forwardStep (vF x) none = (MACD (slow : Int) fast m : Operator α).forwardStep (vF x) (some (macdState slow fast m ([] : List (Idx s → α)))) := by
  have T := macd_tracks (α := α) h1 h2 h3 s
  rw [T.first x trivial, T.next [] x trivial]
  rfl

theorem macd32_tracks {slow fast m : Nat} (h1 : 0 < slow) (h2 : 0 < fast) (h3 : 0 < m) (b1 : slow < 2 ^ 31) (b2 : fast < 2 ^ 31) (b3 : m < 2 ^ 31) (s : List Nat) :
    Tracks (MACD (slow : Int) fast m : Operator α).int32 (fun h => h.length + slow < 2 ^ 32 ∧ h.length + fast < 2 ^ 32) (fun x : Idx s → α => vF x)
      (macdOut32 slow fast m) (macdState32 slow fast m) := by
  refine ⟨fun x hV => ?_, fun h x hV => ?_, fun x => ⟨by simp, by simp [Tensors]⟩, ⟨.tup [.leaf (.float, s), .leaf (.float, s), .leaf (.float, s), .leaf (.float, s), .leaf (.float, s)],
      fun h _ => ?_⟩, ⟨.tup [.leaf .int, .tup [.leaf .int, .leaf .float, .tup [.leaf .int, .leaf .float]], .tup [.leaf .int, .leaf .float, .tup [.leaf .int, .leaf .float]],
        .tup [.leaf .int, .leaf .float, .tup [.leaf .int, .leaf .float]]], fun h => ⟨by simp [macdState32, avgState32, bufState, WF_tup], HasType_iff.2 rfl⟩⟩⟩
  · have := macd32_next h1 h2 h3 b1 b2 b3 [] x (by simp at hV ⊢; omega) (by simp at hV ⊢; omega)
    rw [List.nil_append] at this
    have e : macdState32 slow fast m ([] : List (Idx s → α)) = macdState slow fast m ([] : List (Idx s → α)) := by
      have e0 : macdHistory slow fast ([] : List (Idx s → α)) = [] := by simp [macdHistory, scan_nil]
      have o : ∀ (p : Nat), overflown p (expAvg p) ([] : List (Idx s → α)) = expAvg p [] := fun p => if_pos (by simp)
      rw [macdState32, macdState, List.take_nil, e0]
      simp only [avgState32, avgState, o, List.length_nil, Int.natCast_zero, wrap32_zero, seen, List.take_nil, List.drop_nil, List.append_nil]
    rw [← this, e]
    simp only [Operator.int32, macd32_none h1 h2 h3]
  · exact macd32_next h1 h2 h3 b1 b2 b3 h x (by simp at hV ⊢; omega) (by simp at hV ⊢; omega)
  · rw [macdOut32]
    split
    · exact ⟨by simp [WF_tup], rfl⟩
    · exact ⟨by simp [macdOut, WF_tup], rfl⟩

/-- MACD: from sample `2^31` on the macd line, the signal line and the histogram are zero, and the slow and the fast average are the simple moving averages
of `C87_ema`. -/
theorem C87_macd {slow fast m : Nat} (h1 : 0 < slow) (h2 : 0 < fast) (h3 : 0 < m) (b1 : slow < 2 ^ 31) (b2 : fast < 2 ^ 31) (b3 : m < 2 ^ 31) {xs : List (Idx s → α)}
    (hx : xs ≠ []) (l1 : xs.length + slow < 2 ^ 32) (l2 : xs.length + fast < 2 ^ 32) :
    ∃ os sf s0, call (MACD (slow : Int) fast m).int32 (vBuf xs) none = .ok (vBuf5 os, sf, s0) ∧ ∃ _ : os.length = xs.length, ∀ i (hi : i < xs.length),
      os[i] = if i < 2 ^ 31 then macdAll slow fast m (xs.take (i + 1)) else
        (movingAvg slow (xs.take slow ++ (xs.take (i + 1)).drop (2 ^ 31)), movingAvg fast (xs.take fast ++ (xs.take (i + 1)).drop (2 ^ 31)),
          Arith.zero, Arith.zero, Arith.zero) := by
  let f : List (Idx s → α) → (Idx s → α) × (Idx s → α) × (Idx s → α) × (Idx s → α) × (Idx s → α) := fun h =>
    if 2 ^ 31 < h.length then (overflown slow (expAvg slow) h, overflown fast (expAvg fast) h, Arith.zero, Arith.zero, Arith.zero) else macdAll slow fast m h
  have ho : macdOut32 slow fast m = fun h : List (Idx s → α) => PyVal.tup [vF (f h).1, vF (f h).2.1, vF (f h).2.2.1, vF (f h).2.2.2.1, vF (f h).2.2.2.2] := by
    funext h
    simp only [macdOut32, f]
    split <;> rfl
  have T := macd32_tracks (α := α) h1 h2 h3 b1 b2 b3 s
  rw [ho] at T
  have hz : IsSeries (vBuf5 (scan f [] xs)) (scan (fun h => PyVal.tup [vF (f h).1, vF (f h).2.1, vF (f h).2.2.1, vF (f h).2.2.2.1, vF (f h).2.2.2.2]) [] xs) := by
    have := isSeries_tup_map (A := (Idx s → α) × (Idx s → α) × (Idx s → α) × (Idx s → α) × (Idx s → α))
      (es := [fun b => vF b.1, fun b => vF b.2.1, fun b => vF b.2.2.1, fun b => vF b.2.2.2.1, fun b => vF b.2.2.2.2])
      (.cons (rowSeries_map _ (scan f [] xs)) (.cons (rowSeries_map _ _) (.cons (rowSeries_map _ _) (.cons (rowSeries_map _ _) (.cons (rowSeries_map _ _) .nil)))))
    exact (congrArg (IsSeries (vBuf5 (scan f [] xs))) (scan_map _ f [] xs)).mp this
  refine ⟨_, _, _, T.eval hx (fun k _ hk => ?_) (rows_ok xs).1 (rows_ok xs).2.1 (rows_ok xs).2.2 hz, by simp, fun i hi => ?_⟩
  · simp only [List.length_take]; omega
  · simp only [scan_getElem, List.nil_append, f, overflown, List.length_take, Nat.min_eq_left (show i + 1 ≤ xs.length from hi)]
    by_cases hi : i < 2 ^ 31
    · rw [if_neg (by omega), if_pos hi]
    · rw [if_pos (by omega), if_neg (by omega), if_neg (by omega), if_neg hi, seen, seen, List.take_take, List.take_take, Nat.min_eq_left (by omega), Nat.min_eq_left (by omega)]
example := C87_macd (α := XR ℚ) (slow := 3) (fast := 2) (m := 2) (by norm_num) (by norm_num) (by norm_num) (by norm_num) (by norm_num) (by norm_num)
  (xs := List.replicate (2 ^ 31 + 5) (pt (XR.fin 1))) (by rw [← List.length_pos_iff, List.length_replicate]; norm_num) (by rw [List.length_replicate]; norm_num)
  (by rw [List.length_replicate]; norm_num)

/-! ### Average true range -/

theorem atr_at {c : α} {x : CLH α} {t o n i : Val α} (ht : t.WF ∧ Tensors t)
    (h : (RMA (p : Int) : Operator α).forwardStep (vF (pt (trueRangeOf c x.low x.high))) (some t) = .ok (o, n, i)) :
    (ATR (p : Int) : Operator α).forwardStep (encCLH x) (some (.tup [vS c, t])) = .ok (o, .tup [vS x.close, n], .tup [vS c, i]) := by
  have e : trueRange (s := []) (fun _ => x.low) (fun _ => x.high) (fun _ => c) = trueRangeOf c x.low x.high := rfl
  have c' : call (RMA (p : Int)) (vS (trueRangeOf c x.low x.high)) (some t) false = .ok (o, n, i) := by
    rw [call_some, toTensors_ok ht.1 ht.2, ← h]; rfl
  simp only [ATR, streamable, unpackArgs, arity, encCLH, PyVal.tup]
  simp
  rw [e, c']
  simp

/-- the state of ATR with int32 counters -/
def atrState32 (p : Nat) (h : List (CLH α)) : Val α := .tup [vS (lastClose h), avgState32 p (s := []) (rollAvg p) ((trueRanges h).map pt)]

theorem atr32_next (h0 : 0 < p) (hp : p < 2 ^ 31) (h : List (CLH α)) (x : CLH α) (hl : h.length + 1 + p < 2 ^ 32) :
    (ATR (p : Int) : Operator α).int32.forwardStep (encCLH x) (some (atrState32 p h)) =
      .ok (vF (overflown p (rollAvg p) ((trueRanges (h ++ [x])).map pt)), atrState32 p (h ++ [x]), atrState32 p h) := by
  have tup : ∀ (c : α) (a : Val α), wrapVal (.tup [vS c, a]) = .tup [vS c, wrapVal a] := fun _ _ => rfl
  have k := avg32_next (rma_at (α := α) (s := []) h0) hp (h := (trueRanges h).map pt) (pt (trueRangeOf (lastClose h) x.low x.high)) (by simpa [trueRanges] using hl)
  obtain ⟨o, n, i, a, b⟩ := int32_inv k
  simp only [Prod.mk.injEq] at b
  change (RMA (p : Int) : Operator α).forwardStep _ (some (avgState32 p (rollAvg p) _)) = _ at a
  rw [atrState32, int32_step (atr_at ⟨by simp [avgState32, bufState, WF_tup], by simp [avgState32, bufState, Tensors, flatten, flattens]⟩ a), tup, tup]
  have e : (trueRanges (h ++ [x])).map pt = (trueRanges h).map pt ++ [pt (trueRangeOf (lastClose h) x.low x.high)] := by rw [trueRanges_snoc, List.map_append]; rfl
  rw [atrState32, lastClose_snoc, e]
  obtain ⟨b1, b2, b3⟩ := b
  rw [← b1, ← b2, ← b3]
  rfl

theorem atr32_tracks (h0 : 0 < p) (hp : p < 2 ^ 31) : Tracks (ATR (p : Int) : Operator α).int32 (fun h => h.length + p < 2 ^ 32) encCLH
    (fun h => vF (overflown p (rollAvg p) ((trueRanges h).map pt))) (atrState32 p) := by
  refine ⟨fun x hV => ?_, fun h x hV => ?_, encCLH_ok, ⟨.leaf (.float, []), fun h _ => ⟨by simp, rfl⟩⟩,
    ⟨.tup [.leaf .float, .tup [.leaf .int, .leaf .float, .tup [.leaf .int, .leaf .float]]], fun h => ⟨by simp [atrState32, avgState32, bufState, WF_tup], HasType_iff.2 rfl⟩⟩⟩
  · have := atr32_next h0 hp [] x (by simp at hV ⊢; omega)
    rw [List.nil_append] at this
    have e : atrState32 p ([] : List (CLH α)) = atrState p [] := by
      have o : overflown p (rollAvg p) ([] : List (Idx [] → α)) = rollAvg p [] := if_pos (by simp)
      have t : trueRanges ([] : List (CLH α)) = [] := by simp [trueRanges]
      rw [atrState32, atrState, t]
      simp only [avgState32, avgState, List.map_nil, o, List.length_nil, Int.natCast_zero, wrap32_zero, seen, List.take_nil, List.drop_nil, List.append_nil]
    have T := atr_tracks (α := α) h0
    rw [← this, e]
    simp only [Operator.int32, T.first x trivial, (T.next [] x trivial).trans (by rw [List.nil_append])]
  · exact atr32_next h0 hp h x (by simp at hV ⊢; omega)

/-- Average true range: as for the rolling average, of the true ranges. -/
theorem C87_atr (h0 : 0 < p) (hp : p < 2 ^ 31) {xs : List (CLH α)} (hx : xs ≠ []) (hl : xs.length + p < 2 ^ 32) :
    ∃ os sf s0, call (ATR (p : Int)).int32 (candles xs) none = .ok (vSBuf os, sf, s0) ∧ ∃ _ : os.length = xs.length, ∀ i (hi : i < xs.length),
      os[i] = if i < 2 ^ 31 then rollAvg p (trueRanges (xs.take (i + 1))) else
        movingAvg p ((trueRanges xs).take p ++ (trueRanges (xs.take (i + 1))).drop (2 ^ 31)) := by
  let f : List (CLH α) → α := fun h => if h.length ≤ 2 ^ 31 then rollAvg p (trueRanges h) else movingAvg p (seen p (trueRanges h))
  have ht : ∀ h : List (CLH α), (trueRanges h).length = h.length := fun h => by simp [trueRanges]
  have hf : (fun h : List (CLH α) => (vF (overflown p (rollAvg p) ((trueRanges h).map pt)) : Val α)) = fun h => vS (f h) := by
    funext h
    have e : overflown p (rollAvg p) ((trueRanges h).map pt) = pt (f h) := by
      simp only [overflown, f, List.length_map, ht]
      split
      · exact rollAvg_pt p _
      · funext c
        rw [seen, ← List.map_take, ← List.map_drop, ← List.map_append, movingAvg_apply, map_pt_apply]; rfl
    rw [e]; rfl
  have T := atr32_tracks (α := α) h0 hp
  rw [hf] at T
  have hz := isSeries_vSBuf (scan f [] xs)
  rw [scan_map] at hz
  refine ⟨_, _, _, T.eval hx (fun k _ hk => ?_) (candles_ok xs).1 (candles_ok xs).2.1 (candles_ok xs).2.2 hz, by simp, fun i hi => ?_⟩
  · simp only [List.length_take]; omega
  · have e : ∀ k, trueRanges (xs.take k) = (trueRanges xs).take k := fun k => by
      rw [trueRanges, trueRanges, List.take_zipWith, List.map_take]
      cases k with
      | zero => simp
      | succ k =>
        refine List.ext_getElem (by simp; omega) fun j h1 h2 => ?_
        simp only [List.getElem_zipWith]
        congr 1
        cases j <;> simp
    simp only [scan_getElem, List.nil_append, f, List.length_take, Nat.min_eq_left (show i + 1 ≤ xs.length from hi)]
    by_cases h1 : i < 2 ^ 31
    · rw [if_pos (by omega), if_pos h1]
    · rw [if_neg (by omega), if_neg h1, seen, e, List.take_take, Nat.min_eq_left (by omega)]
example := C87_atr (α := XR ℚ) (p := 2) (by norm_num) (by norm_num) (xs := List.replicate (2 ^ 31 + 5) ⟨XR.fin 1, XR.fin 1, XR.fin 2⟩) (by
  rw [← List.length_pos_iff, List.length_replicate]; norm_num) (by rw [List.length_replicate]; norm_num)

end
end TS
