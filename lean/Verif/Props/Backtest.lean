import Verif.Props.RiskRatio
import Verif.Props.Join
import Verif.Props.Compose
import Verif.Props.Stateless
/-
C85: back-testing a trading signal.
-/
namespace TS
open PyVal
variable {α : Type}

/-- A signal over the closes, evaluated over the candles: the pipeline a back-test runs over the series of lows, highs, closes and closes. -/
def Backtest [TFNum α] (q : RRParams) (S : Operator α) : Operator α := Compose [RiskRatioEvaluator q, Join [Identity, Identity, Identity, S]]

/-- the inputs of a back-test -/
abbrev backCandles (rows : List (CLH α)) : Val α :=
  .tup [vSBuf (rows.map CLH.low), vSBuf (rows.map CLH.high), vSBuf (rows.map CLH.close), vSBuf (rows.map CLH.close)]

/-- candles with signals -/
abbrev withSignals (rows : List (CLH α)) (sig : List Int) : List (RRIn α) := List.zipWith (fun x s => ⟨x.low, x.high, x.close, .inr s⟩) rows sig

section
variable [TFNum α]

/-- Counting buys and sells: the evaluator buys only on the signal 1, and sells only what it has bought. -/
theorem rr_trades (hz : TFNum.eq (Arith.ofRat 0 : α) (Arith.ofRat 0) = true) (q : RRParams) (p : Nat) {l : List (RRIn α)} {os : List (RROut α)} (hlen : os.length = l.length)
    (h2 : ∀ i (hi : i < l.length), os[i] = rrY q p (l.take (i + 1))) :
    (∀ i (hi : i < l.length), os[i].signal = 1 → l[i].isBuy = true) ∧
    (∀ i, i < l.length → ((os.take (i + 1)).map RROut.signal).count (-1) ≤ ((os.take i).map RROut.signal).count 1) := by
  have step : ∀ i (hi : i < l.length), ∃ n s vol, rrOf q p (l.take (i + 1)) = (n, s) ∧ os[i].signal = s ∧
      rrStep q l[i].low l[i].high l[i].close l[i].isBuy vol (rrOf q p (l.take i)).1 = (n, s) := fun i hi => by
    have := rrOf_snoc q p (l.take i) l[i]
    rw [← List.take_succ_eq_append_getElem hi] at this
    exact ⟨_, _, _, rfl, by rw [h2 i hi]; rfl, this.symm⟩
  have cases : ∀ i (hi : i < l.length), (os[i].signal = 1 ∧ l[i].isBuy = true) ∨
      (os[i].signal = -1 ∧ TFNum.eq (rrOf q p (l.take i)).1.stop (Arith.ofRat 0) = false ∧ (rrOf q p (l.take (i + 1))).1.stop = Arith.ofRat 0) ∨
      (os[i].signal = 0 ∧ (rrOf q p (l.take (i + 1))).1.stop = (rrOf q p (l.take i)).1.stop) := fun i hi => by
    obtain ⟨n, s, vol, e, hs, h⟩ := step i hi
    rw [hs, e]
    rw [rrStep_eq] at h
    split at h
    · split at h <;> obtain ⟨rfl, rfl⟩ := Prod.mk.inj h
      · left; exact ⟨rfl, by assumption⟩
      · right; right; exact ⟨rfl, rfl⟩
    · rename_i hn
      have hn' : TFNum.eq (rrOf q p (l.take i)).1.stop (Arith.ofRat 0) = false := by simpa using hn
      split at h
      · obtain ⟨rfl, rfl⟩ := Prod.mk.inj h; exact .inr (.inl ⟨rfl, hn', rfl⟩)
      · split at h
        · obtain ⟨rfl, rfl⟩ := Prod.mk.inj h; exact .inr (.inl ⟨rfl, hn', rfl⟩)
        · split at h
          · obtain ⟨rfl, rfl⟩ := Prod.mk.inj h; exact .inr (.inl ⟨rfl, hn', rfl⟩)
          · obtain ⟨rfl, rfl⟩ := Prod.mk.inj h; exact .inr (.inr ⟨rfl, rfl⟩)
  have snoc : ∀ i, (hi : i < l.length) → ∀ c : Int, ((os.take (i + 1)).map RROut.signal).count c = ((os.take i).map RROut.signal).count c + if os[i].signal = c then 1 else 0 := by
    intro i hi c
    rw [List.take_succ_eq_append_getElem (show i < os.length by omega), List.map_append, List.count_append, List.map_singleton, List.count_singleton]
    simp only [beq_iff_eq]
  have inv : ∀ i, i ≤ l.length → ((os.take i).map RROut.signal).count (-1) + (if TFNum.eq (rrOf q p (l.take i)).1.stop (Arith.ofRat 0) = true then 0 else 1) ≤
      ((os.take i).map RROut.signal).count 1 := by
    intro i
    induction i with
    | zero => intro _; simp [rrOf, rrRev, hz]
    | succ i ih =>
      intro hi
      have := ih (by omega)
      rw [snoc i hi, snoc i hi]
      rcases cases i hi with ⟨h, -⟩ | ⟨h, h3, h4⟩ | ⟨h, h3⟩
      · rw [h]; simp only [show ¬ ((1 : Int) = -1) by decide, if_false, if_true]
        split <;> omega
      · rw [h, h4]; rw [h3] at this
        simp [hz] at this ⊢; exact this
      · rw [h, h3]; simpa using this
  refine ⟨fun i hi h => ?_, fun i hi => ?_⟩
  · rcases cases i hi with ⟨-, h'⟩ | ⟨h', -⟩ | ⟨h', -⟩
    · exact h'
    · rw [h] at h'; cases h'
    · rw [h] at h'; cases h'
  · have := inv i (by omega)
    rw [snoc i hi]
    rcases cases i hi with ⟨h, -⟩ | ⟨h, h3, h4⟩ | ⟨h, h3⟩
    · rw [h, if_neg (by decide)]; omega
    · rw [h]; rw [h3] at this; simpa using this
    · rw [h, if_neg (by decide)]; omega

/-- **C85, every signal**, every arithmetic in which zero equals itself: buys happen only on the signal 1, and at every moment the number of sells, which is the total of bets,
is at most the number of buys before. -/
theorem C85_trades (hz : TFNum.eq (Arith.ofRat 0 : α) (Arith.ofRat 0) = true) {q : RRParams} {p : Nat} (hp : 0 < p) (hq : q.volatility_period = p)
    {v : Val α} {l : List (RRIn α)} (hv : Quotes v l) (hl : l ≠ []) :
    ∃ (os : List (RROut α)) (sf s0 : Val α), call (RiskRatioEvaluator q) v none = .ok (rrOuts os, sf, s0) ∧
      ∃ hl : os.length = l.length, ∀ i (hi : i < l.length), (os[i].signal = 1 → l[i].isBuy = true) ∧
        os[i].total ≤ ((os.take i).map RROut.signal).count 1 := by
  obtain ⟨os, sf, s0, h1, hlen, h2⟩ := rr_call hp hq hv hl
  obtain ⟨os', sf', s0', h1', -, hlen', h3⟩ := C49_counters hp hq hv hl
  obtain ⟨a, b⟩ := rr_trades hz q p hlen h2
  have e : os' = os := by
    rw [h1] at h1'
    simp only [Except.ok.injEq, Prod.mk.injEq] at h1'
    exact (rrOuts_inj h1'.1).symm
  subst e
  exact ⟨os', sf, s0, h1, hlen, fun i hi => ⟨a i hi, by rw [(h3 i hi).2.2.2.1]; exact_mod_cast b i hi⟩⟩

/-- **C85, the pipeline**: back-testing a signal gives what the evaluator gives over the candles and the streamed signals. -/
theorem C85_backtest {q : RRParams} {S : Operator α} (hS : Lib S (IsArgs 1) (· = .leaf ())) {rows : List (CLH α)} (hr : rows ≠ [])
    {sig : List Int} {sfS s0S : Val α} (h1 : call S (vSBuf (rows.map CLH.close)) none = .ok (vIBuf sig, sfS, s0S)) {z sf s0 : Val α}
    (h2 : call (RiskRatioEvaluator q) (.tup [vSBuf (rows.map CLH.low), vSBuf (rows.map CLH.high), vSBuf (rows.map CLH.close), vIBuf sig]) none = .ok (z, sf, s0)) :
    call (Backtest q S) (backCandles rows) none =
      .ok (z, .tup [.tup [.unit, .unit, .unit, sfS], sf], .tup [.tup [.unit, .unit, .unit, s0S], s0]) := by
  have hid : ∀ l : List α, l ≠ [] → call Identity (vSBuf l) none = .ok (vSBuf l, PyVal.unit, PyVal.unit) := fun l hl =>
    C23_identity (n := l.length - 1) (by
      have : 0 < l.length := List.length_pos_iff.2 hl
      simp [IsTensorSeries, Leaf.size0, Tensor.pack, Tensor.size0]; omega) (.inl rfl)
  have hlen : ∀ f : CLH α → α, rows.map f ≠ [] := fun f => by simpa using hr
  have hreg : ∀ op ∈ [Identity, Identity, Identity, S], op.Sane ∧ op.Uniform := by
    simp only [List.mem_cons, List.not_mem_nil, or_false]
    rintro op (rfl | rfl | rfl | rfl)
    all_goals first | exact ⟨hS.ok.sane, hS.ok.uniform⟩ | exact ⟨(Lib.identity (α := α) fun _ => True).ok.sane, (Lib.identity (α := α) fun _ => True).ok.uniform⟩
  have hj : call (Join [Identity, Identity, Identity, S]) (backCandles rows) none =
      .ok (.tup [vSBuf (rows.map CLH.low), vSBuf (rows.map CLH.high), vSBuf (rows.map CLH.close), vIBuf sig], .tup [.unit, .unit, .unit, sfS], .tup [.unit, .unit, .unit, s0S]) := by
    refine (C12_join_bank (by simp) hreg (vs := [vSBuf (rows.map CLH.low), vSBuf (rows.map CLH.high), vSBuf (rows.map CLH.close), vSBuf (rows.map CLH.close)]) rfl ?_
      (n := rows.length) ?_ (.inl ⟨rfl, rfl⟩) _).2 ⟨_, _, _, .cons (hid _ (hlen _)) (.cons (hid _ (hlen _)) (.cons (hid _ (hlen _)) (.cons h1 .nil))), rfl⟩
    · simp [flatten, vSBuf]
    · simp [flatten, vSBuf, vBuf, Leaf.size0, Tensor.pack, Tensor.size0]
  have hlib : ∀ k (hk : k < [RiskRatioEvaluator q, Join [Identity, Identity, Identity, S]].reverse.length),
      Lib [RiskRatioEvaluator q, Join [Identity, Identity, Identity, S]].reverse[k]
        ((fun k => match k with | 0 | 1 => (· = .tup [.leaf (), .leaf (), .leaf (), .leaf ()]) | _ => (· = .tup [.leaf (), .leaf (), .leaf (), .leaf ()])) k)
        ((fun k => match k with | 0 | 1 => (· = .tup [.leaf (), .leaf (), .leaf (), .leaf ()]) | _ => (· = .tup [.leaf (), .leaf (), .leaf (), .leaf ()])) (k + 1)) := by
    intro k hk
    match k, hk with
    | 0, _ =>
      refine (Lib.join (ops := [Identity, Identity, Identity, S]) (Ds := fun _ => (· = .leaf ())) (Es := fun _ => (· = .leaf ())) ?_).weaken ?_ ?_
      · intro k hk
        match k, hk with
        | 0, _ => exact (Lib.identity (· = .leaf ())).weaken (by rintro _ rfl; exact ⟨_, rfl, rfl⟩) (by simp)
        | 1, _ => exact (Lib.identity (· = .leaf ())).weaken (by rintro _ rfl; exact ⟨_, rfl, rfl⟩) (by simp)
        | 2, _ => exact (Lib.identity (· = .leaf ())).weaken (by rintro _ rfl; exact ⟨_, rfl, rfl⟩) (by simp)
        | 3, _ => exact hS.weaken (by rintro _ rfl; exact isArgs_leaf) (by simp)
      · rintro _ rfl
        exact ⟨_, .inl rfl, rfl, fun k hk => by match k, hk with | 0, _ => rfl | 1, _ => rfl | 2, _ => rfl | 3, _ => rfl⟩
      · rintro _ ⟨l, rfl, hl, h⟩
        match l, hl, h with
        | [a, b, c, d], _, h =>
          have h0 : a = _ := h 0 (by simp)
          have h1 : b = _ := h 1 (by simp)
          have h2 : c = _ := h 2 (by simp)
          have h3 : d = _ := h 3 (by simp)
          subst h0 h1 h2 h3
          rfl
    | 1, _ => exact (Lib.basic (.riskRatio q)).weaken (by rintro _ rfl; rfl) (by simp)
  exact C10_compose_pipeline_library (by simp) hlib (by simp [WF_tup, vSBuf]) rfl (.cons hj (.cons h2 (.nil _)))

end

/-! ### Signals that alternate -/

/-- Of alternating signals, at most half (rounded up) are 1. -/
theorem count_alternating {os : List Int} (ha : Alternates os) (hv : ∀ o ∈ os, o = -1 ∨ o = 0 ∨ o = 1) {n : Nat} (hn : ∀ i, i < n → i < os.length → os[i]? = some 0) (i : Nat) (hi : i ≤ os.length) :
    (os.take i).count 1 ≠ 0 → 2 * (os.take i).count 1 + n ≤ i + 1 := by
  have snoc : ∀ i, (hi : i < os.length) → ∀ c : Int, (os.take (i + 1)).count c = (os.take i).count c + if os[i] = c then 1 else 0 := by
    intro i hi c
    rw [List.take_succ_eq_append_getElem hi, List.count_append, List.count_singleton]
    simp only [beq_iff_eq]
  have inv : ∀ i, i ≤ os.length → (((os.take i).count 1 = 0 ∧ (os.take i).count (-1) = 0 ∧ ∀ j, j < i → os[j]? = some 0) ∨
      ∃ j a, j < i ∧ os[j]? = some a ∧ (∀ k, j < k → k < i → os[k]? = some 0) ∧
        ((a = 1 ∧ ((os.take i).count 1 = (os.take i).count (-1) ∨ (os.take i).count 1 = (os.take i).count (-1) + 1)) ∨
         (a = -1 ∧ ((os.take i).count (-1) = (os.take i).count 1 ∨ (os.take i).count (-1) = (os.take i).count 1 + 1)))) ∧
      (os.take i).count 1 + (os.take i).count (-1) + min n i ≤ i := by
    intro i
    induction i with
    | zero => intro _; simp
    | succ i ih =>
      intro hi
      obtain ⟨h1, h2⟩ := ih (by omega)
      have hi' : i < os.length := hi
      have e : os[i]? = some os[i] := List.getElem?_eq_getElem hi'
      rw [snoc i hi, snoc i hi]
      rcases hv os[i] (List.getElem_mem _) with h | h | h
      · have hni : n ≤ i := by
          by_contra hc
          have := hn i (by omega) hi'
          rw [e, h] at this; simp at this
        refine ⟨.inr ⟨i, -1, by omega, by rw [e, h], fun k _ _ => by omega, .inr ⟨rfl, ?_⟩⟩, ?_⟩
        · simp only [h, if_true, show ¬ ((-1 : Int) = 1) by decide, if_false]
          rcases h1 with ⟨a, b, -⟩ | ⟨j, a, hj, hja, hk, hh⟩
          · omega
          · have := ha j i hj a (-1) hja (by rw [e, h]) (by omega) (by decide) hk
            omega
        · simp only [h, if_true, show ¬ ((-1 : Int) = 1) by decide, if_false]
          omega
      · refine ⟨?_, ?_⟩
        · simp only [h, show ¬ ((0 : Int) = 1) by decide, show ¬ ((0 : Int) = -1) by decide, if_false, Nat.add_zero]
          rcases h1 with ⟨a, b, c⟩ | ⟨j, a, hj, hja, hk, hh⟩
          · refine .inl ⟨a, b, fun j hj => ?_⟩
            rcases Nat.lt_succ_iff_lt_or_eq.1 hj with hj | rfl
            · exact c j hj
            · rw [e, h]
          · refine .inr ⟨j, a, by omega, hja, fun k h3 h4 => ?_, hh⟩
            rcases Nat.lt_succ_iff_lt_or_eq.1 h4 with h4 | rfl
            · exact hk k h3 h4
            · rw [e, h]
        · simp only [h, show ¬ ((0 : Int) = 1) by decide, show ¬ ((0 : Int) = -1) by decide, if_false, Nat.add_zero]
          omega
      · have hni : n ≤ i := by
          by_contra hc
          have := hn i (by omega) hi'
          rw [e, h] at this; simp at this
        refine ⟨.inr ⟨i, 1, by omega, by rw [e, h], fun k _ _ => by omega, .inl ⟨rfl, ?_⟩⟩, ?_⟩
        · simp only [h, if_true, show ¬ ((1 : Int) = -1) by decide, if_false]
          rcases h1 with ⟨a, b, -⟩ | ⟨j, a, hj, hja, hk, hh⟩
          · omega
          · have := ha j i hj a 1 hja (by rw [e, h]) (by omega) (by decide) hk
            omega
        · simp only [h, if_true, show ¬ ((1 : Int) = -1) by decide, if_false]
          omega
  intro h0
  obtain ⟨h1, h2⟩ := inv i hi
  rcases h1 with ⟨a, -, -⟩ | ⟨j, a, hj, hja, hk, hh⟩
  · exact absurd a h0
  · omega

section
variable {K : Type} [Field K] [LinearOrder K] [IsStrictOrderedRing K] [Transc K] [FloorRing K]

/-- What a back-test over a trading signal outputs: nothing below index `n`; it buys only where the underlying series is positive; and `t` bets take at least `2 t - 1` steps from index `n` on. -/
structure BoundedBets (us : List K) (n : Nat) (os : List (RROut (XR K))) : Prop where
  length : os.length = us.length
  silent : ∀ i (hi : i < os.length), i < n → os[i].signal = 0 ∧ os[i].total = 0
  buys : ∀ i (hi : i < os.length) (hu : i < us.length), os[i].signal = 1 → 0 < us[i]
  bets : ∀ i (hi : i < os.length), os[i].total ≠ 0 → 2 * os[i].total + n ≤ i + 1

/-- **C85, trading signals**, exact arithmetic: a back-test over a signal that is silent below `n` and alternates. -/
theorem C85_bounded {S : Operator (XR K)} (hS : Lib S (IsArgs 1) (· = .leaf ())) {q : RRParams} {p : Nat} (hp : 0 < p) (hq : q.volatility_period = p)
    {rows : List (CLH (XR K))} (hr : rows ≠ []) {sig : List Int} {sfS s0S : Val (XR K)} (h1 : call S (vSBuf (rows.map CLH.close)) none = .ok (vIBuf sig, sfS, s0S))
    {us : List K} (hu : us.length = rows.length) {n : Nat} (ht : TradeSignal us n sig) :
    ∃ os sf s0, call (Backtest q S) (backCandles rows) none = .ok (rrOuts os, sf, s0) ∧ BoundedBets us n os := by
  have hl : sig.length = rows.length := ht.length.trans hu
  have hq' : Quotes (.tup [vSBuf (rows.map CLH.low), vSBuf (rows.map CLH.high), vSBuf (rows.map CLH.close), vIBuf sig]) (withSignals rows sig) := by
    have zip : ∀ {B : Type} (f : RRIn (XR K) → B) (g : CLH (XR K) → B), (∀ x s, f ⟨x.low, x.high, x.close, .inr s⟩ = g x) → (withSignals rows sig).map f = rows.map g := by
      intro B f g hfg
      refine List.ext_getElem (by simp [hl]) fun i a b => ?_
      simp [hfg]
    refine ⟨_, by rw [zip RRIn.low CLH.low fun _ _ => rfl, zip RRIn.high CLH.high fun _ _ => rfl, zip RRIn.close CLH.close fun _ _ => rfl], .inr ⟨sig, rfl, ?_⟩⟩
    refine List.ext_getElem (by simp [hl]) fun i a b => by simp
  have hne : withSignals rows sig ≠ [] := by
    rw [← List.length_pos_iff] at hr ⊢
    simpa [hl] using hr
  have hz : TFNum.eq (Arith.ofRat 0 : XR K) (Arith.ofRat 0) = true := by simp
  obtain ⟨os, sf, s0, h2, hlen, h3⟩ := C85_trades hz hp hq hq' hne
  obtain ⟨os', sf', s0', h2', -, hlen', h4⟩ := C49_counters hp hq hq' hne
  obtain rfl : os' = os := by
    rw [h2] at h2'
    simp only [Except.ok.injEq, Prod.mk.injEq] at h2'
    exact (rrOuts_inj h2'.1).symm
  have hlw : (withSignals rows sig).length = rows.length := by simp [hl]
  have hl' : os'.length = rows.length := hlen.trans hlw
  -- buys happen on signals 1
  have one : ∀ i (hi : i < os'.length), os'[i].signal = 1 → sig[i]'(by omega) = 1 := by
    intro i hi h
    have := (h3 i (by omega)).1 h
    simpa [withSignals, RRIn.isBuy] using this
  have cnt : ∀ i, i ≤ os'.length → ((os'.take i).map RROut.signal).count 1 ≤ (sig.take i).count 1 := by
    intro i
    induction i with
    | zero => intro _; simp
    | succ i ih =>
      intro hi
      have := ih (by omega)
      rw [List.take_succ_eq_append_getElem (show i < os'.length by omega), List.take_succ_eq_append_getElem (show i < sig.length by omega), List.map_append, List.count_append,
        List.count_append, List.map_singleton, List.count_singleton, List.count_singleton]
      by_cases h : os'[i].signal = 1
      · rw [h, one i hi h]; simpa using this
      · simp only [beq_iff_eq, h, if_false]; omega
  have tot : ∀ i (hi : i < os'.length), os'[i].total ≤ (sig.take i).count 1 := by
    intro i hi
    have := (h3 i (by omega)).2
    have := cnt i (by omega)
    omega
  have nn : ∀ i (hi : i < os'.length), 0 ≤ os'[i].total := fun i hi => by
    have := h4 i (by omega); omega
  have hb := count_alternating ht.alternates ht.values (n := n) fun i h1 h2 => ht.silent i h1 (by have := ht.length; omega)
  have hbets : ∀ i (hi : i < os'.length), os'[i].total ≠ 0 → 2 * os'[i].total + n ≤ i + 1 := by
    intro i hi h
    have h5 := tot i hi
    have h6 := nn i hi
    have := hb i (by omega) (by omega)
    omega
  refine ⟨os', _, _, C85_backtest hS hr h1 h2, by omega, fun i hi hin => ?_, fun i hi hui h => ?_, hbets⟩
  · have ht0 : os'[i].total = 0 := by
      by_contra hc
      have := hbets i hi hc
      have := nn i hi
      omega
    refine ⟨?_, ht0⟩
    obtain ⟨h5, -, -, h6, -⟩ := h4 i (by omega)
    rcases h5 with h5 | h5 | h5
    · have : ((os'.take (i + 1)).map RROut.signal).count (-1) ≠ 0 := by
        rw [List.take_succ_eq_append_getElem hi, List.map_append, List.count_append, List.map_singleton, h5]; simp
      omega
    · exact h5
    · have h7 := one i hi h5
      have h8 := ht.silent i hin (by omega)
      rw [List.getElem?_eq_getElem (by omega), h7] at h8
      simp at h8
  · have h7 := one i hi h
    have := ht.sign i hui 1 (by rw [List.getElem?_eq_getElem (by omega), h7]) (by decide)
    rw [sgn] at this
    split at this
    · assumption
    · split at this <;> simp at this

/-- **C85, crossovers of moving averages**, exact arithmetic: back-testing the crossover signal buys only when the fast average is above the slow one, not before index `slow`, and makes at most
`(i + 1 - slow) / 2` bets up to index `i`. -/
theorem C85_crossover {slow fast : Nat} (hs : 0 < slow) (hf : 0 < fast) {q : RRParams} {p : Nat} (hp : 0 < p) (hq : q.volatility_period = p)
    {rows : List (CLH (XR K))} (hr : rows ≠ []) {xs : List K} (hx : rows.map CLH.close = xs.map XR.fin) :
    ∃ us os, (∃ sf s0, call (SMACrossover (slow : Int) fast) (finSeries xs) none = .ok (finSeries us, sf, s0)) ∧
      (∃ sf s0, call (Backtest q (SMACrossoverSignal (slow : Int) fast)) (backCandles rows) none = .ok (rrOuts os, sf, s0)) ∧ BoundedBets us slow os := by
  have hlen : xs.length = rows.length := by simpa using (congrArg List.length hx).symm
  have hx0 : xs ≠ [] := by rw [← List.length_pos_iff] at hr ⊢; omega
  obtain ⟨sig, us, ⟨sf, s0, h1⟩, h2, h3, h4⟩ := C34_sma (K := K) hs hf hx0
  obtain ⟨os, sf', s0', h5, h6⟩ := C85_bounded (SMACrossoverSignal_lib _ _) hp hq hr (by rw [hx]; exact h1) (h3.trans hlen) h4
  exact ⟨us, os, h2, ⟨_, _, h5⟩, h6⟩

/-- **C85, MACD**: the same for the signal of the MACD histogram, from index `slow + m - 2` on. -/
theorem C85_macd {slow fast m : Nat} (hs : 0 < slow) (hf : 0 < fast) (hm : 0 < m) {q : RRParams} {p : Nat} (hp : 0 < p) (hq : q.volatility_period = p)
    {rows : List (CLH (XR K))} (hr : rows ≠ []) {xs : List K} (hx : rows.map CLH.close = xs.map XR.fin) :
    ∃ us os, (∃ a b c d sf s0, call (MACD (slow : Int) fast m) (finSeries xs) none = .ok (.tup [a, b, c, d, finSeries us], sf, s0)) ∧
      (∃ sf s0, call (Backtest q (MACDSignal (slow : Int) fast m)) (backCandles rows) none = .ok (rrOuts os, sf, s0)) ∧ BoundedBets us (slow + m - 2) os := by
  have hlen : xs.length = rows.length := by simpa using (congrArg List.length hx).symm
  have hx0 : xs ≠ [] := by rw [← List.length_pos_iff] at hr ⊢; omega
  obtain ⟨sig, us, ⟨sf, s0, h1⟩, h2, h3, h4⟩ := C34_macd (K := K) hs hf hm hx0
  obtain ⟨os, sf', s0', h5, h6⟩ := C85_bounded (MACDSignal_lib _ _ _) hp hq hr (by rw [hx]; exact h1) (h3.trans hlen) h4
  exact ⟨us, os, h2, ⟨_, _, h5⟩, h6⟩
end

/-! ### Cases -/

/-- six candles with alternating closes -/
abbrev sixCandles : List (CLH (XR ℚ)) := [⟨.fin 4, .fin 3, .fin 5⟩, ⟨.fin 2, .fin 1, .fin 3⟩, ⟨.fin 4, .fin 3, .fin 5⟩, ⟨.fin 2, .fin 1, .fin 3⟩, ⟨.fin 4, .fin 3, .fin 5⟩, ⟨.fin 2, .fin 1, .fin 3⟩]

example := C85_crossover (K := ℚ) (slow := 2) (fast := 1) (by norm_num) (by norm_num) (q := ⟨1, 2, 2, none⟩) (p := 2) (by norm_num) rfl (rows := sixCandles) (by simp) (xs := [4, 2, 4, 2, 4, 2]) rfl
example := C85_macd (K := ℚ) (slow := 3) (fast := 2) (m := 2) (by norm_num) (by norm_num) (by norm_num) (q := ⟨1, 2, 2, none⟩) (p := 2) (by norm_num) rfl (rows := sixCandles) (by simp) (xs := [4, 2, 4, 2, 4, 2]) rfl
/-- the bound on the bets is reached: two bets up to index 5 -/
example : (call (Backtest ⟨1, 2, 2, none⟩ (SMACrossoverSignal 2 1)) (backCandles sixCandles) none).map (fun r => match r.1 with | .node _ [_, t, _, s] => (t, s) | v => (v, v)) =
    .ok (vIBuf [0, 0, 0, 1, 1, 2], vIBuf [0, 0, 1, -1, 1, -1]) := by decide +kernel
theorem sixSignals : output (call (SMACrossoverSignal 2 1) (vSBuf (sixCandles.map CLH.close)) none) = .ok (vIBuf [0, 0, 1, -1, 1, -1]) := by decide +kernel
example := C85_trades (α := XR ℚ) (by simp) (q := ⟨1, 2, 2, none⟩) (p := 2) (by norm_num) rfl
  (v := flatQuotes [(2, 0), (1, 1)]) (l := [⟨.fin 2, .fin 2, .fin 2, .inr 0⟩, ⟨.fin 1, .fin 1, .fin 1, .inr 1⟩]) ⟨_, rfl, .inr ⟨_, rfl, rfl⟩⟩ (by simp)
theorem output_ok {r : Res (Step α)} {z : Val α} (h : output r = .ok z) : ∃ sf s0, r = .ok (z, sf, s0) := by
  cases r with
  | error e => cases h
  | ok a => obtain ⟨z', sf, s0⟩ := a; cases h; exact ⟨sf, s0, rfl⟩
example : output (call (Backtest ⟨1, 2, 2, none⟩ (SMACrossoverSignal 2 1)) (backCandles sixCandles) none) =
    output (call (RiskRatioEvaluator ⟨1, 2, 2, none⟩) (.tup [vSBuf (sixCandles.map CLH.low), vSBuf (sixCandles.map CLH.high), vSBuf (sixCandles.map CLH.close), vIBuf [0, 0, 1, -1, 1, -1]]) none) := by
  obtain ⟨_, _, h⟩ := output_ok sixSignals
  obtain ⟨os, _, _, h', -⟩ := rr_call (α := XR ℚ) (q := ⟨1, 2, 2, none⟩) (p := 2) (by norm_num) rfl (l := withSignals sixCandles [0, 0, 1, -1, 1, -1]) ⟨_, rfl, .inr ⟨[0, 0, 1, -1, 1, -1], rfl, rfl⟩⟩ (by simp)
  have := C85_backtest (SMACrossoverSignal_lib 2 1) (rows := sixCandles) (by simp) h h'
  rw [this]
  exact Eq.symm ((congrArg output h').trans rfl)
example : ∃ us os sf s0, call (Backtest ⟨1, 2, 2, none⟩ (SMACrossoverSignal 2 1)) (backCandles sixCandles) none = .ok (rrOuts os, sf, s0) ∧ BoundedBets (K := ℚ) us 2 os := by
  obtain ⟨sig, us, ⟨sf, s0, h1⟩, h2, h3, h4⟩ := C34_sma (K := ℚ) (slow := 2) (fast := 1) (by norm_num) (by norm_num) (xs := [4, 2, 4, 2, 4, 2]) (by simp)
  obtain ⟨os, sf, s0, h⟩ := C85_bounded (SMACrossoverSignal_lib 2 1) (q := ⟨1, 2, 2, none⟩) (p := 2) (by norm_num) rfl (rows := sixCandles) (by simp) h1 h3 h4
  exact ⟨us, os, sf, s0, h⟩
end TS
