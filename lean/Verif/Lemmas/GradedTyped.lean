import Verif.Lemmas.Typed
/-
The ints in well-typed operators.
-/
namespace TS
open PyVal
variable {α : Type}
set_option linter.unusedSimpArgs false
set_option linter.unusedSectionVars false

section
variable {Q : Int → Prop}

@[simp] theorem IntsOK.f {t : Tensor α} : IntsOK Q (.f t) := trivial
@[simp] theorem IntsOK.b {t : Tensor Bool} : IntsOK Q (.b t : Leaf α) := trivial
@[simp] theorem IntsOK.scalar {n : Int} : IntsOK Q (.i (Tensor.scalar n) : Leaf α) ↔ Q n := ⟨fun h => h (), fun h _ => h⟩
@[simp] theorem holds_vI {n : Int} : Holds Q (vI n : Val α) ↔ Q n := by
  simp only [vI, holds_leaf, IntsOK]
  exact ⟨fun h => h (), fun h _ => h⟩
@[simp] theorem holds_vF {s : List Nat} {a : Idx s → α} : Holds Q (vF a) := by simp [vF, IntsOK]
@[simp] theorem holds_vS {a : α} : Holds Q (vS a) := by simp [vS, IntsOK]
@[simp] theorem holds_vB {b : Bool} : Holds Q (vB b : Val α) := by simp [vB, IntsOK]
@[simp] theorem holds_vBuf {s : List Nat} {l : List (Idx s → α)} : Holds Q (vBuf l) := by simp [vBuf, IntsOK]
@[simp] theorem holds_vSBuf {l : List α} : Holds Q (vSBuf l) := by simp [vSBuf, IntsOK]
theorem holds_vIs {s : List Nat} {a : Idx s → Int} : Holds Q (vIs a : Val α) ↔ ∀ c, Q (a c) := by simp [vIs, IntsOK]

end

section
variable [TFNum α] {c : Nat} {Q : Nat → Int → Prop}

theorem makeStreamable_graded {fn : List (Val α) → Res (Val α)} {X O}
    (h : ∀ k x, Fits Q X k x → ∃ o, fn (unpackArgs x) = .ok o ∧ Fits Q O k o) : (makeStreamable fn).Graded Q X O PyVal.unit := by
  have e : unpackArgs (PyVal.unit : Val α) = [] := rfl
  refine ⟨fun _ s => s = PyVal.unit, ?_, fun _ _ h => h, ?_⟩
  · rintro k _ rfl; exact ⟨unit_ok.1, rfl, holds_tup.2 (by simp)⟩
  · intro k x st hx hst
    obtain ⟨o, h1, h2⟩ := h _ x hx
    cases st with
    | none => exact ⟨o, _, _, by simp [makeStreamable, streamable, h1], h2, rfl, rfl⟩
    | some s => cases hst s rfl; exact ⟨o, PyVal.unit, PyVal.unit, by simp [makeStreamable, streamable, e, h1], h2, rfl, rfl⟩

theorem arith2_graded (ff : α → α → α) (fi : Int → Int → Int) (s : List Nat) :
    (makeStreamable (lambda2 (arith2 ff fi)) : Operator α).Graded Q (.tup [tF s, tF s]) (tF s) PyVal.unit := by
  refine makeStreamable_graded fun k x hx => ?_
  obtain ⟨y, z, rfl, hy, hz⟩ := hasSig_pair hx.2.1
  obtain ⟨a, rfl⟩ := hasSig_tF hy
  obtain ⟨b, rfl⟩ := hasSig_tF hz
  refine ⟨vF fun c => ff (a c) (b c), ?_, by simp, rfl, by simp⟩
  simp [PyVal.tup, unpackArgs, lambda2, decLeaf, arith2, broadcast_same]

theorem setDuring_graded (g : Grading c Q) {value : Leaf α} {f : Leaf α → Leaf α} (hf : ∀ l, (f l).sig = l.sig) (hq : ∀ k l, IntsOK (Q k) l → IntsOK (Q k) (f l)) {X}
    (hset : ∀ x : Val α, HasSig x X → ∀ b, ∀ l ∈ flatten x, setLeaf value b l = .ok (if b then f l else l)) (period : Int) :
    (SetDuring value period).Graded Q X X (.tup [tI []]) := by
  have h0 : ∀ x, (SetDuring value period).forwardStep x none = (SetDuring value period).forwardStep x (some (.tup [vI 0])) := fun x => rfl
  have key : ∀ k x (n : Nat), n ≤ k → Fits Q X (k + 1) x → ∃ o n' i, (SetDuring value period).forwardStep x (some (.tup [vI n])) = .ok (o, n', i) ∧ Fits Q X (k + 1) o ∧
      (∃ n : Nat, n ≤ k + 1 ∧ n' = .tup [vI n]) ∧ (∃ n : Nat, n ≤ k ∧ i = .tup [vI n]) := by
    intro k x n hn hx
    refine ⟨_, _, _, setDuring_step hx.1 (hset x hx.2.1) period n, ?_, ⟨n + 1, by omega, by simp⟩, ⟨n, hn, rfl⟩⟩
    split
    · refine ⟨(WF_of_skel_eq (by simp)).2 hx.1, hx.2.1.map_same hf, ?_⟩
      intro l hl
      rw [flatten_map, List.mem_map] at hl
      obtain ⟨l, hl, rfl⟩ := hl
      exact hq _ _ (hx.2.2 l hl)
    · exact hx
  refine ⟨fun k s => ∃ n : Nat, n ≤ k ∧ s = .tup [vI n], ?_, ?_, ?_⟩
  · rintro k _ ⟨n, hn, rfl⟩; exact ⟨by simp [WF_tup], rfl, holds_tup.2 (by simpa using g.base k n (by simp; omega))⟩
  · rintro k _ ⟨n, hn, rfl⟩; exact ⟨n, by omega, rfl⟩
  · intro k x st hx hst
    cases st with
    | none => rw [h0]; exact key k x 0 (by omega) hx
    | some s => obtain ⟨n, hn, rfl⟩ := hst s rfl; exact key k x n hn hx

end

/-- counters -/
macro "counted" g:term : tactic => `(tactic| (
  intro k h; intros
  try simp only [bufState, avgState, corrState, crossState, macdState, sbufState, extState, retState, rsiState, atrState, haState, zcState, macdOut,
    holds_tup, List.forall_mem_cons, List.not_mem_nil, false_imp_iff, implies_true, forall_const, and_true, true_and, holds_vI, holds_vF, holds_vS, holds_vB, holds_vBuf, holds_vSBuf]
  try (repeat' apply And.intro)
  all_goals first
    | trivial
    | (apply Grading.base $g; simp only [Int.natAbs_natCast, List.length_map, List.length_take, List.length_drop, List.length_zip, List.length_zipWith, lagPairs, macdHistory, excess, trueRanges, scan_length, List.length_cons]; omega)))

section
variable [TFNum α] {c : Nat} {Q : Nat → Int → Prop}

theorem tracks_float_graded {op : Operator α} {s : List Nat} {out st : List (Idx s → α) → Val α} (T : Tracks op Any (fun x : Idx s → α => vF x) out st) (g : Grading c Q)
    {O S} (hO : ∀ h, h ≠ [] → HasSig (out h) O) (hS : ∀ h, HasSig (st h) S) (pO : ∀ k h, h ≠ [] → h.length ≤ k → Holds (Q k) (out h))
    (pS : ∀ k h, h.length ≤ k → Holds (Q k) (st h)) : op.Graded Q (tF s) O S :=
  T.graded g (fun _ h => hasSig_tF h) hO hS (fun k h h1 h2 _ => pO k h h1 h2) (fun k h h1 _ => pS k h h1)

theorem tracks_scalar_graded {op : Operator α} {out st : List α → Val α} (T : Tracks op Any vS out st) (g : Grading c Q)
    {O S} (hO : ∀ h, h ≠ [] → HasSig (out h) O) (hS : ∀ h, HasSig (st h) S) (pO : ∀ k h, h ≠ [] → h.length ≤ k → Holds (Q k) (out h))
    (pS : ∀ k h, h.length ≤ k → Holds (Q k) (st h)) : op.Graded Q (tF []) O S :=
  T.graded g (fun _ h => hasSig_scalar h) hO hS (fun k h h1 h2 _ => pO k h h1 h2) (fun k h h1 _ => pS k h h1)

theorem lag_graded (g : Grading c Q) (d : DType) (s : List Nat) {p : Nat} (hp : 0 < p) : (Lag (p : Int) : Operator α).Graded Q (.leaf (d, s)) (.leaf (d, s)) (.leaf (d, p :: s)) := by
  cases d with
  | float => exact tracks_float_graded (lag_tracks hp s) g (fun _ _ => rfl) (fun _ => by sig) (by counted g) (fun _ _ _ => by simp [IntsOK])
  | int =>
    have mem : ∀ k (h : List (Idx s → Int)), (∀ a ∈ h, Holds (Q k) (vIs a : Val α)) → ∀ a ∈ padded (fun _ => 0) p h, ∀ c, Q k (a c) := by
      intro k h hh a ha c
      rcases List.mem_append.1 (List.mem_of_mem_take ha) with ha | ha
      · exact holds_vIs.1 (hh a (by simpa using ha)) c
      · rw [List.eq_of_mem_replicate ha]; exact g.zero k
    refine (lag_tracks_int hp s).graded g (O := .leaf (.int, s)) (fun x h => ?_) (fun _ _ => rfl) (fun _ => by sig) ?_ ?_
    · obtain ⟨y, rfl, hy⟩ := hasSig_leaf_inv h
      cases y <;> simp [Leaf.sig] at hy
      rename_i t; obtain ⟨s', v⟩ := t; simp only at hy; subst hy; exact ⟨v, rfl⟩
    · intro k h _ _ hh
      refine holds_vIs.2 fun c => ?_
      simp only [lagged]
      cases e : h.reverse[p]? with
      | none => exact g.zero k
      | some a => exact holds_vIs.1 (hh a (by simpa using List.mem_of_getElem? e)) c
    · intro k h _ hh
      simp only [holds_leaf, IntsOK]
      rintro ⟨i, c⟩
      exact mem k h hh _ (List.getElem_mem _) c
  | bool =>
    refine (lag_tracks_bool hp s).graded g (O := .leaf (.bool, s)) (fun x h => ?_) (fun _ _ => rfl) (fun _ => by sig) ?_ ?_
    · obtain ⟨y, rfl, hy⟩ := hasSig_leaf_inv h
      cases y <;> simp [Leaf.sig] at hy
      rename_i t; obtain ⟨s', v⟩ := t; simp only at hy; subst hy; exact ⟨v, rfl⟩
    · intro k h _ _ hh
      simp [IntsOK]
    · intro k h _ hh
      simp [IntsOK]

theorem daysSincePeak_bound (h : List α) : 0 ≤ daysSincePeak h ∧ daysSincePeak h ≤ h.length := by
  induction h with
  | nil => simp [daysSincePeak]
  | cons x h ih =>
    simp only [daysSincePeak, List.length_cons]
    split <;> constructor <;> omega

theorem direction_signs (S : SignsExact α) (x : α) (h : List α) : direction (x :: h) = Arith.ofRat 1 ∨ direction (x :: h) = Arith.ofRat (-1) := by
  have : ∀ (l : List α) (d : α), d = Arith.ofRat 1 ∨ d = Arith.ofRat (-1) →
      l.foldl (fun d v => if against d v then - d else d) d = Arith.ofRat 1 ∨ l.foldl (fun d v => if against d v then - d else d) d = Arith.ofRat (-1) := by
    intro l
    induction l with
    | nil => exact fun _ h => h
    | cons a l ih =>
      intro d hd
      refine ih _ ?_
      show (if against d a then - d else d) = _ ∨ (if against d a then - d else d) = _
      split
      · rcases hd with rfl | rfl
        · exact .inr S.neg_one
        · exact .inl S.neg_neg_one
      · exact hd
  refine this h _ ?_
  simp only [orientation]
  split <;> simp

theorem crossing_toInt (S : SignsExact α) (h : List α) : (TFNum.toInt (crossing h)).natAbs ≤ 1 := by
  unfold crossing
  split
  · simp [S.zero]
  · split
    · simp [S.zero]
    · rename_i he
      split
      · have hne : h.dropLast ≠ [] := by simpa using he
        cases hd : h.dropLast with
        | nil => exact absurd hd hne
        | cons x l =>
          rcases direction_signs S x l with e | e <;> rw [e]
          · rw [S.neg_one, S.minus_one]; decide
          · rw [S.neg_neg_one, S.one]; decide
      · simp [S.zero]

/-- what one step of the risk ratio evaluator does to its counters -/
theorem rrStep_bound (q : RRParams) (low high close : α) (b : Bool) (v : α) (st : RRState α) {n : Int} (hn : 0 ≤ n) (h1 : 0 ≤ st.duration ∧ st.duration ≤ n)
    (h2 : 0 ≤ st.successful ∧ st.successful ≤ n) (h3 : 0 ≤ st.total ∧ st.total ≤ n) : let r := rrStep q low high close b v st
    (0 ≤ r.1.duration ∧ r.1.duration ≤ n + 1) ∧ (0 ≤ r.1.successful ∧ r.1.successful ≤ n + 1) ∧ (0 ≤ r.1.total ∧ r.1.total ≤ n + 1) ∧ r.2.natAbs ≤ 1 := by
  intro r
  have mem : ∀ {A : Type} (P : A → Prop) (l : List (Bool × A)) (d : A), (∀ x ∈ l, P x.2) → P d → P (tfCase l d) := by
    intro A P l d hl hd
    induction l with
    | nil => exact hd
    | cons x l ih =>
      simp only [tfCase]
      split
      · exact hl x (by simp)
      · exact ih fun y hy => hl y (by simp [hy])
  refine mem (fun r : RRState α × Int => (0 ≤ r.1.duration ∧ r.1.duration ≤ n + 1) ∧ (0 ≤ r.1.successful ∧ r.1.successful ≤ n + 1) ∧ (0 ≤ r.1.total ∧ r.1.total ≤ n + 1) ∧ r.2.natAbs ≤ 1)
    _ _ ?_ ?_
  · intro x hx
    cases hm : q.max_bet_duration <;> simp only [hm, List.append_nil, List.mem_append, List.mem_cons, List.not_mem_nil, or_false] at hx
    · rcases hx with rfl | rfl | rfl <;> simp only [] <;> refine ⟨⟨?_, ?_⟩, ⟨?_, ?_⟩, ⟨?_, ?_⟩, by decide⟩ <;> omega
    · rcases hx with (rfl | rfl | rfl) | rfl <;> simp only [] <;> refine ⟨⟨?_, ?_⟩, ⟨?_, ?_⟩, ⟨?_, ?_⟩, by decide⟩ <;> omega
  · simp only []
    refine ⟨⟨?_, ?_⟩, ⟨?_, ?_⟩, ⟨?_, ?_⟩, by decide⟩ <;> omega

theorem rr_bound (q : RRParams) (p : Nat) (h : List (RRIn α)) : (0 ≤ (rrRev q p h).1.duration ∧ (rrRev q p h).1.duration ≤ h.length) ∧
    (0 ≤ (rrRev q p h).1.successful ∧ (rrRev q p h).1.successful ≤ h.length) ∧ (0 ≤ (rrRev q p h).1.total ∧ (rrRev q p h).1.total ≤ h.length) ∧
    (rrRev q p h).2.natAbs ≤ 1 := by
  induction h with
  | nil => simp [rrRev]
  | cons x h ih => exact rrStep_bound q _ _ _ _ _ _ (by omega) ih.1 ih.2.1 ih.2.2.1

theorem rr_graded_aux (g : Grading c Q) (q : RRParams) (p : Nat) {k : Nat} {h : List (RRIn α)} (hk : h.length ≤ k) :
    Holds (Q k) (rrOut q p h) ∧ Holds (Q k) (rrVal q p h) := by
  obtain ⟨h1, h2, h3, h4⟩ := rr_bound q p h.reverse
  simp only [List.length_reverse] at h1 h2 h3
  simp only [rrOut, rrVal, bufState, holds_tup, List.forall_mem_cons, List.not_mem_nil, false_imp_iff, implies_true, and_true, holds_vI, holds_vS, holds_vBuf, true_and, rrOf]
  refine ⟨⟨?_, ?_, ?_⟩, ?_, ?_, ?_, ?_⟩ <;> apply g.base <;> first | omega | (simp only [Int.natAbs_natCast, List.length_map]; omega)

/-- **Well-typed operators count.** -/
theorem TypedIn.graded (E : SignsExact α) (g : Grading c Q) {op : Operator α} {X O S} (h : TypedIn (fun n => n.natAbs ≤ c) op X O S) : op.Graded Q X O S := by
  induction h with
  | sub s => exact (arith2_graded _ _ s)
  | add s => exact (arith2_graded _ _ s)
  | mul s => exact (arith2_graded _ _ s)
  | positive s =>
    refine (makeStreamable_graded fun k x hx => ?_)
    obtain ⟨a, rfl⟩ := hasSig_tF hx.2.1
    exact ⟨_, rfl, by simp, rfl, by simp⟩
  | negative s =>
    refine (makeStreamable_graded fun k x hx => ?_)
    obtain ⟨a, rfl⟩ := hasSig_tF hx.2.1
    exact ⟨_, rfl, by simp, rfl, by simp⟩
  | fork c l =>
    refine (makeStreamable_graded fun k x hx => ?_)
    obtain ⟨y, rfl, hy⟩ := hasSig_leaf_inv hx.2.1
    refine ⟨_, rfl, by simp [WF_tup], hasSig_tup ?_, holds_tup.2 fun z hz => ?_⟩
    · rw [List.forall₂_iff_get]
      exact ⟨by simp, fun i _ _ => by simpa [unpackArgs] using hx.2.1⟩
    · rw [List.eq_of_mem_replicate hz]; exact hx.2.2
  | identity l =>
    refine (makeStreamable_graded fun k x hx => ?_)
    obtain ⟨y, rfl, hy⟩ := hasSig_leaf_inv hx.2.1
    exact ⟨_, rfl, hx⟩
  | @select ls k hk =>
    refine (makeStreamable_graded fun _ x hx => ?_)
    obtain ⟨xs, rfl, hx'⟩ := hasSig_tup_inv hx.2.1
    obtain ⟨hl, hx'⟩ := List.forall₂_iff_get.1 hx'
    refine ⟨xs[k]'(by omega), ?_, WF_tup.1 hx.1 _ (List.getElem_mem _), hx' k (by omega) hk, holds_tup.1 hx.2.2 _ (List.getElem_mem _)⟩
    have e : ¬ (k : Int) < 0 := by omega
    simp [unpackArgs, PyVal.tup, pyIndex, e, List.getElem?_eq_getElem (by omega : k < xs.length)]
  | lag d s hp => exact (lag_graded g d s hp)
  | setDuringFloat c p h =>
    refine (setDuring_graded g (f := fillF c) (fillF_sig c) (fun k l hl => by cases l <;> trivial) (fun x hx b l hl => ?_) p)
    have := leaf_of_dtype h hx l hl
    cases l <;> simp [Leaf.dtype] at this
    exact setLeaf_f
  | setDuringInt c p hc h =>
    refine (setDuring_graded g (f := fillI c) (fillI_sig c) (fun k l hl => ?_) (fun x hx b l hl => ?_) p)
    · cases l <;> first | trivial | exact fun _ => g.base k c (by omega)
    · have := leaf_of_dtype h hx l hl
      cases l <;> simp [Leaf.dtype] at this
      exact setLeaf_i
  | globalMinimum => exact (tracks_scalar_graded globalMin_tracks g (fun _ _ => rfl) (fun _ => by sig) (by counted g) (by counted g))
  | globalMaximum => exact (tracks_scalar_graded globalMax_tracks g (fun _ _ => rfl) (fun _ => by sig) (by counted g) (by counted g))
  | localMinimum hp => exact (tracks_scalar_graded (localExtremum_tracks _ _ hp) g (fun _ _ => rfl) (fun _ => by sig) (by counted g) (by counted g))
  | localMaximum hp => exact (tracks_scalar_graded (localExtremum_tracks _ _ hp) g (fun _ _ => rfl) (fun _ => by sig) (by counted g) (by counted g))
  | correlation s hp => exact ((corr_tracks hp s).graded g (O := tF s) (fun _ h => hasSig_pair_float h) (fun _ _ => rfl) (fun _ => by sig) (by counted g) (by counted g))
  | crossCorrelation s hp hl => exact ((cross_tracks hp hl s).graded g (O := tF s) (fun _ h => hasSig_pair_float h) (fun _ _ => rfl) (fun _ => by sig) (by counted g) (by counted g))
  | autoCorrelation s hp hl => exact (tracks_float_graded (auto_tracks hp hl s) g (fun _ _ => rfl) (fun _ => by sig) (by counted g) (by counted g))
  | sma s hp => exact (tracks_float_graded (sma_tracks hp s) g (fun _ _ => rfl) (fun _ => by sig) (by counted g) (by counted g))
  | msd s hp => exact (tracks_float_graded (msd_tracks hp s) g (fun _ _ => rfl) (fun _ => by sig) (by counted g) (by counted g))
  | ema s hp => exact (tracks_float_graded (ema_tracks hp s) g (fun _ _ => rfl) (fun _ => by sig) (by counted g) (by counted g))
  | rma s hp => exact (tracks_float_graded (rma_tracks hp s) g (fun _ _ => rfl) (fun _ => by sig) (by counted g) (by counted g))
  | bollingerBands s hp k => exact (tracks_float_graded (bollinger_tracks hp k s) g (fun _ _ => rfl) (fun _ => by sig) (by counted g) (by counted g))
  | macd s hs hf hm => exact (tracks_float_graded (macd_tracks hs hf hm s) g (fun _ _ => rfl) (fun _ => by sig) (by counted g) (by counted g))
  | return_ hz hp => exact (tracks_scalar_graded (return_tracks hz _ hp) g (fun _ _ => rfl) (fun _ => by sig) (by counted g) (by counted g))
  | logReturn hz hp => exact (tracks_scalar_graded (return_tracks hz _ hp) g (fun _ _ => rfl) (fun _ => by sig) (by counted g) (by counted g))
  | sharpeRatio hp =>
    refine ((sharpe_tracks hp).graded g (O := tF []) (fun x h => ?_) (fun _ _ => rfl) (fun _ => by sig) (by counted g) (by counted g))
    obtain ⟨a, rfl⟩ := hasSig_pair_float h
    exact ⟨(a.1 (), a.2 ()), rfl⟩
  | skewness hp => exact (tracks_scalar_graded (skewness_tracks hp) g (fun _ _ => rfl) (fun _ => by sig) (by counted g) (by counted g))
  | rsi hp => exact (tracks_scalar_graded (rsi_tracks hp) g (fun _ _ => rfl) (fun _ => by sig) (by counted g) (by counted g))
  | atr hp =>
    refine ((atr_tracks hp).graded g (O := tF []) (fun x h => ?_) (fun _ _ => rfl) (fun _ => by sig) (by counted g) (by counted g))
    obtain ⟨xs, rfl, h'⟩ := hasSig_tup_inv h
    rcases h' with _ | ⟨h1, _ | ⟨h2, _ | ⟨h3, ⟨⟩⟩⟩⟩
    obtain ⟨a, rfl⟩ := hasSig_scalar h1
    obtain ⟨b, rfl⟩ := hasSig_scalar h2
    obtain ⟨c, rfl⟩ := hasSig_scalar h3
    exact ⟨⟨a, b, c⟩, rfl⟩
  | heikinAshi =>
    refine (ha_tracks.graded g (O := .tup [tF [], tF [], tF [], tF []]) (fun x h => ?_) (fun _ _ => rfl) (fun _ => by sig) (by
      intro k h _ _ _; simp [encOHLC, holds_tup]) (by counted g))
    obtain ⟨xs, rfl, h'⟩ := hasSig_tup_inv h
    rcases h' with _ | ⟨h1, _ | ⟨h2, _ | ⟨h3, _ | ⟨h4, ⟨⟩⟩⟩⟩⟩
    obtain ⟨a, rfl⟩ := hasSig_scalar h1
    obtain ⟨b, rfl⟩ := hasSig_scalar h2
    obtain ⟨c, rfl⟩ := hasSig_scalar h3
    obtain ⟨d, rfl⟩ := hasSig_scalar h4
    exact ⟨⟨a, b, c, d⟩, rfl⟩
  | drawdown =>
    refine (tracks_scalar_graded drawdown_tracks g (fun _ _ => rfl) (fun _ => by sig) (fun k h _ hk => ?_) (fun k h hk => ?_))
    all_goals
      have := daysSincePeak_bound h.reverse
      simp only [List.length_reverse] at this
      simp only [ddOut, ddState, holds_tup, List.forall_mem_cons, List.not_mem_nil, false_imp_iff, implies_true, and_true, holds_vI, holds_vS, true_and]
      exact g.base _ _ (by omega)
  | zeroCrossover s =>
    refine (tracks_float_graded zc_tracks g (fun _ _ => rfl) (fun _ => by sig) (fun k h _ hk => ?_) (by counted g))
    exact holds_vIs.2 fun c => g.base _ _ (by have := crossing_toInt E (h.map (· c)); omega)
  | riskRatioFloat hp q hq =>
    refine (((rr_tracks hp hq).comap fun x : α × α × α × α => ⟨x.1, x.2.1, x.2.2.1, .inl x.2.2.2⟩).graded g (O := .tup [tI [], tI [], tF [], tI []]) (fun x h => ?_)
      (fun _ _ => rfl) (fun _ => by sig) (fun k h _ hk _ => (rr_graded_aux g _ _ (by simpa using hk)).1) (fun k h hk _ => (rr_graded_aux g _ _ (by simpa using hk)).2))
    obtain ⟨xs, rfl, h'⟩ := hasSig_tup_inv h
    rcases h' with _ | ⟨h1, _ | ⟨h2, _ | ⟨h3, _ | ⟨h4, ⟨⟩⟩⟩⟩⟩
    obtain ⟨a, rfl⟩ := hasSig_scalar h1
    obtain ⟨b, rfl⟩ := hasSig_scalar h2
    obtain ⟨c, rfl⟩ := hasSig_scalar h3
    obtain ⟨d, rfl⟩ := hasSig_scalar h4
    exact ⟨⟨a, b, c, d⟩, rfl⟩
  | riskRatioInt hp q hq =>
    refine (((rr_tracks hp hq).comap fun x : α × α × α × Int => ⟨x.1, x.2.1, x.2.2.1, .inr x.2.2.2⟩).graded g (O := .tup [tI [], tI [], tF [], tI []]) (fun x h => ?_)
      (fun _ _ => rfl) (fun _ => by sig) (fun k h _ hk _ => (rr_graded_aux g _ _ (by simpa using hk)).1) (fun k h hk _ => (rr_graded_aux g _ _ (by simpa using hk)).2))
    obtain ⟨xs, rfl, h'⟩ := hasSig_tup_inv h
    rcases h' with _ | ⟨h1, _ | ⟨h2, _ | ⟨h3, _ | ⟨h4, ⟨⟩⟩⟩⟩⟩
    obtain ⟨a, rfl⟩ := hasSig_scalar h1
    obtain ⟨b, rfl⟩ := hasSig_scalar h2
    obtain ⟨c, rfl⟩ := hasSig_scalar h3
    obtain ⟨y, rfl, hy⟩ := hasSig_leaf_inv h4
    cases y <;> simp [Leaf.sig] at hy
    rename_i t; obtain ⟨s', v⟩ := t; simp only at hy; subst hy
    exact ⟨⟨a, b, c, v ()⟩, rfl⟩
  | compose hne _ ih => exact Compose_graded hne ih
  | join _ ih => exact Join_graded ih
  | ffill _ hX hO hS ih => exact FFill_graded g ih hX hO hS
  | map h hX hm ih => exact Map_graded h.regular.1 ih hX hm

/-- Steps from a state of the invariant. -/
theorem graded_steps {op : Operator α} {X O S} {I : Nat → Val α → Prop} (hI : ∀ k s, I k s → Fits Q S k s)
    (hn : ∀ k x st, Fits Q X (k + 1) x → (∀ s ∈ st, I k s) → ∃ o n i, op.forwardStep x st = .ok (o, n, i) ∧ Fits Q O (k + 1) o ∧ I (k + 1) n ∧ I k i) (g : Grading c Q) :
    ∀ {xs : List (Val α)} {k : Nat} {s : Val α}, (∀ x ∈ xs, Fits Q X (k + 1) x) → I k s →
      ∃ os sf, stepsTyped op (S.map Prod.fst) xs s = .ok (os, sf) ∧ (∀ o ∈ os, Fits Q O (k + xs.length) o) ∧ I (k + xs.length) sf ∧ os.length = xs.length := by
  intro xs
  induction xs with
  | nil => intro k s _ hs; exact ⟨[], s, rfl, by simp, hs, rfl⟩
  | cons x xs ih =>
    intro k s hx hs
    obtain ⟨o, n, i, h1, ho, hn', -⟩ := hn k x (some s) (hx x (by simp)) (by rintro _ ⟨⟩; exact hs)
    obtain ⟨os, sf, h2, h3, h4, h5⟩ := ih (k := k + 1) (fun y hy => (hx y (by simp [hy])).mono g (by omega)) hn'
    have e : k + 1 + xs.length = k + (x :: xs).length := by simp; omega
    rw [e] at h3 h4
    refine ⟨o :: os, sf, stepsTyped_cons_ok.2 ⟨o, n, i, os, h1, (toType_ok (hI _ n hn').1).2 (hI _ n hn').2.1.hasType, h2, rfl⟩, ?_, h4, by simp [h5]⟩
    rintro y hy
    rcases List.mem_cons.1 hy with rfl | hy
    · exact ho.mono g (by simp)
    · exact h3 y hy

theorem graded_call (g : Grading c Q) {op : Operator α} {X O S} (h : op.Graded Q X O S)
    {v : Val α} {xs : List (Val α)} (hw : v.WF) (hl : flatten v ≠ []) (hin : IsSeries v xs) (hx : xs ≠ []) (hX : ∀ x ∈ xs, Fits Q X 1 x) :
    ∃ z sf s0 os, call op v none = .ok (z, sf, s0) ∧ IsSeries z os ∧ os.length = xs.length ∧ (∀ o ∈ os, Fits Q O xs.length o) ∧ Fits Q S xs.length sf ∧ Fits Q S 0 s0 := by
  obtain ⟨I, hI, -, hn⟩ := h
  obtain ⟨o0, n0, i0, h0, ho0, -, hs0⟩ := hn 0 (xs.head hx) none (hX _ (List.head_mem hx)) (by simp)
  obtain ⟨os, sf, h1, h2, h3, h4⟩ := graded_steps hI hn g (k := 0) hX hs0
  simp only [Nat.zero_add] at h2 h3
  obtain ⟨z, hz, -⟩ := exists_series (os := os) (ty := O) fun o ho => (h2 o ho).2.1
  refine ⟨z, sf, i0, os, ?_, hz, h4, h2, hI _ _ h3, hI _ _ hs0⟩
  rw [call_eq true hw hin.tensors (by simp)]
  exact callStreamed_complete hw hl hin hx ho0.1 (hI _ _ hs0).1 (fun o ho => (h2 o ho).1) h0 (hI _ _ hs0).2.1.hasType ho0.2.1.hasType h1
    (fun o ho => (h2 o ho).2.1.hasType) hz

end

end TS
