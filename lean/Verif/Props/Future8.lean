import Verif.Props.Future7
/-
C105: having the same future is an equivalence that further samples preserve.
-/
namespace TS
variable {α A B : Type}

/-- **C105 Equivalence**: for every operator, histories on which calls succeed, and any samples. -/
theorem C105_equivalence (op : Operator α) (ser : List A → Val α) :
    (∀ a b, SameFuture op ser a b → SameFuture op ser b a) ∧ ∀ a b c, SameFuture op ser a b → SameFuture op ser b c → SameFuture op ser a c := by
  constructor
  · rintro a b ⟨o, s, i, o', s', i', h1, h2, h3⟩
    refine ⟨o', s', i', o, s, i, h2, h1, fun xs hx => ?_⟩
    obtain ⟨out, sf, si, sf', si', h4, h5⟩ := h3 xs hx
    exact ⟨out, sf', si', sf, si, h5, h4⟩
  · rintro a b c ⟨o, s, i, o', s', i', h1, h2, h3⟩ ⟨o2, s2, i2, o3, s3, i3, k1, k2, k3⟩
    rw [h2, Except.ok.injEq, Prod.mk.injEq, Prod.mk.injEq] at k1
    obtain ⟨rfl, rfl, rfl⟩ := k1
    refine ⟨o, s, i, o3, s3, i3, h1, k2, fun xs hx => ?_⟩
    obtain ⟨out, sf, si, sf', si', h4, h5⟩ := h3 xs hx
    obtain ⟨out', tf, ti, tf', ti', h6, h7⟩ := k3 xs hx
    rw [h5, Except.ok.injEq, Prod.mk.injEq] at h6
    exact ⟨out, sf, si, tf', ti', h4, h6.1 ▸ h7⟩

/-- **C105 Same states**: for every operator, calls that leave the same final state have the same future, if the operator accepts every further series from there. -/
theorem C105_same_state {op : Operator α} {ser : List A → Val α} {a b : List A} {o s i o' i' : Val α} (h1 : call op (ser a) none = .ok (o, s, i)) (h2 : call op (ser b) none = .ok (o', s, i'))
    (h : ∀ xs, xs ≠ [] → ∃ r, call op (ser xs) (some s) = .ok r) : SameFuture op ser a b :=
  ⟨o, s, i, o', s, i', h1, h2, fun xs hx => let ⟨r, hr⟩ := h xs hx; ⟨r.1, r.2.1, r.2.2, r.2.1, r.2.2, hr, hr⟩⟩

/-- **C105 Further samples**: histories with the same future keep having the same future when the same samples are appended to both. -/
theorem C105_extends {op : Operator α} {ser : List A → Val α} {outs : List B → Val α} {y : List A → B} (h : StreamsAs op ser outs y) (hinj : ∀ l m, outs l = outs m → l = m)
    {a b : List A} (ha : a ≠ []) (hb : b ≠ []) (hs : SameFuture op ser a b) (xs : List A) : SameFuture op ser (a ++ xs) (b ++ xs) := by
  rw [h.sameFuture_iff hinj (by simp [ha]) (by simp [hb])]
  rw [h.sameFuture_iff hinj ha hb] at hs
  intro ys hy
  rw [List.append_assoc, List.append_assoc]
  exact hs _ (by simp [hy])

example : SameFuture (EMA 3 : Operator (XR ℚ)) numbers ([1, 4] ++ [7]) ([2, 3] ++ [7]) :=
  C105_extends (ema_reals (p := 3) (by decide)) (fun _ _ => finSeries_inj) (by simp) (by simp) ((C105_ema (p := 3) (by decide) (by simp) (by simp)).2 (.inr (.inr (by norm_num)))) _

example : SameFuture (EMA 3 : Operator (XR ℚ)) numbers [2, 3] [1, 4] :=
  (C105_equivalence _ _).1 _ _ ((C105_ema (p := 3) (by decide) (by simp) (by simp)).2 (.inr (.inr (by norm_num))))

example : SameFuture (Lag 1 : Operator (XR ℚ)) numbers [5, 1] [1] := by
  obtain ⟨st, h, h'⟩ := lag_reals (K := ℚ) (p := 1) (by decide)
  have k : ∃ o s i o' i', call (Lag 1 : Operator (XR ℚ)) (numbers [5, 1]) none = .ok (o, s, i) ∧ call (Lag 1 : Operator (XR ℚ)) (numbers [1]) none = .ok (o', s, i') := ⟨_, _, _, _, _, rfl, rfl⟩
  obtain ⟨o, s, i, o', i', h1, h2⟩ := k
  have e := (h [1] (by simp)).symm.trans h2
  rw [Except.ok.injEq, Prod.mk.injEq, Prod.mk.injEq] at e
  exact C105_same_state h1 h2 fun xs hx => ⟨_, e.2.1 ▸ h' [1] xs hx⟩
end TS
