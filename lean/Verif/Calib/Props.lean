import Verif.Calib.Lemmas2

/-!
# Properties of input range calibration (C36)
-/
namespace Aihw.Calib
open Spec

/-! ### Moving averages -/

/-- `r` is the mean of `k0` values with mean `r0` together with the values `pos`. -/
def MeanOf (r0 : ℚ) (k0 : Nat) (pos : List ℚ) (r : ℚ) (k : Nat) : Prop :=
  k = k0 + pos.length ∧ r * k = r0 * k0 + pos.sum ∧ (pos = [] → r = r0) ∧ 0 ≤ r

theorem mean_cons {r0 v r : ℚ} {k0 k : Nat} {pos : List ℚ} (h0 : 0 ≤ r0) (hv : 0 < v)
    (h : MeanOf |(r0 * k0 + v) / (k0 + 1)| (k0 + 1) pos r k) : MeanOf r0 k0 (v :: pos) r k := by
  obtain ⟨h1, h2, _, h4⟩ := h
  have hk : (0 : ℚ) ≤ k0 := Nat.cast_nonneg k0
  have hnn : 0 ≤ (r0 * k0 + v) / (k0 + 1) := by
    apply div_nonneg
    · have := mul_nonneg h0 hk; linarith
    · linarith
  rw [abs_of_nonneg hnn] at h2
  refine ⟨by rw [h1, List.length_cons]; omega, ?_, by simp, h4⟩
  rw [h2, List.sum_cons]
  push_cast
  have : (k0 : ℚ) + 1 ≠ 0 := by positivity
  field_simp
  ring

theorem mean_nil {r0 : ℚ} {k0 : Nat} (h0 : 0 ≤ r0) : MeanOf r0 k0 [] r0 k0 :=
  ⟨by simp, by simp, fun _ => rfl, h0⟩

/-- Statistic of one batch for `MOVING_QUANTILE` (in words): over the rows that are not all zero, the
largest absolute value if the level is 1, otherwise the quantile of the signed entries. -/
def BatchStat (q : ℚ) (x : List Vec) (v : ℚ) : Prop :=
  if q = 1 then IsMaxAbs (entries [x]) v else IsQuantile q (nonzeroRows [x]).flatten v

theorem runCalls_movingQ {std : List Vec → Option ℚ}
    (calls : List (List Vec × (List Vec → List Vec))) {t : Tile} {h : Hook} {r0 : ℚ}
    (hh : t.hooks = [h]) (hm : h.ctype = .movingQuantile) (hr : t.range = some r0) (h0 : 0 ≤ r0)
    (hok : (runCalls std t calls).2 = .none) :
    ∃ vals r k, (runCalls std t calls).1 = { t with range := some r, updIdx := k } ∧
      List.Forall₂ (BatchStat h.quantile) (calls.map (·.1)) vals ∧
      MeanOf r0 t.updIdx (vals.filter (fun v => decide (0 < v))) r k := by
  induction calls generalizing t r0 with
  | nil =>
    refine ⟨[], r0, t.updIdx, ?_, by simp, by simpa using mean_nil h0⟩
    simp only [runCalls]
    rw [← hr]
  | cons c cs ih =>
    simp only [runCalls] at hok ⊢
    rw [callTile_single hh, runHook_moving (.inl hm)] at hok ⊢
    cases hM : movingVal std h t (dropZero c.1) with
    | error e => rw [hM] at hok; simp at hok
    | ok v =>
      rw [hM] at hok
      simp only at hok ⊢
      unfold movingVal at hM
      rw [if_pos hm] at hM
      obtain ⟨v', hv', hst⟩ : ∃ v', v = some v' ∧ BatchStat h.quantile c.1 v' := by
        by_cases hq : h.quantile = 1
        · rw [if_pos hq] at hM
          cases ha : absMaxOf (dropZero c.1).flatten with
          | error e => rw [ha] at hM; simp [Except.map] at hM
          | ok M =>
            rw [ha] at hM
            simp only [Except.map, Except.ok.injEq] at hM
            refine ⟨M, hM.symm, ?_⟩
            unfold BatchStat
            rw [if_pos hq]
            exact (maxAbs_dropZero ha).1
        · rw [if_neg hq] at hM
          cases ha : quantileOf h.quantile (dropZero c.1).flatten with
          | error e => rw [ha] at hM; simp [Except.map] at hM
          | ok M =>
            rw [ha] at hM
            simp only [Except.map, Except.ok.injEq] at hM
            refine ⟨M, hM.symm, ?_⟩
            unfold BatchStat
            rw [if_neg hq, ← dropZero_eq]
            exact quantile_spec ha
      subst hv'
      by_cases hp : 0 < v'
      · simp only [movingUpd, if_pos hp, hr] at hok ⊢
        obtain ⟨vals, r, k, e1, e2, e3⟩ := ih (t := { t with
            range := some |(r0 * t.updIdx + v') / (t.updIdx + 1)|
            updIdx := t.updIdx + 1, hooks := [h] }) rfl rfl (abs_nonneg _) hok
        refine ⟨v' :: vals, r, k, ?_, List.Forall₂.cons hst e2, ?_⟩
        · rw [e1, ← hh]
        · rw [List.filter_cons_of_pos (by simpa using hp)]
          exact mean_cons h0 hp e3
      · simp only [movingUpd, if_neg hp] at hok ⊢
        have ht : { t with hooks := [h] } = t := by rw [← hh]
        rw [ht] at hok ⊢
        obtain ⟨vals, r, k, e1, e2, e3⟩ := ih hh hr h0 hok
        refine ⟨v' :: vals, r, k, e1, List.Forall₂.cons hst e2, ?_⟩
        rw [List.filter_cons_of_neg (by simpa using hp)]
        exact e3

/-- The multiples of the standard deviations of the batches that are positive (NaN is not). -/
def stdVals (std : List Vec → Option ℚ) (alpha : ℚ) (inputs : List (List Vec)) : List ℚ :=
  (inputs.filterMap fun x => (std (nonzeroRows [x])).map (alpha * ·)).filter fun v => decide (0 < v)

theorem runCalls_movingStd {std : List Vec → Option ℚ}
    (calls : List (List Vec × (List Vec → List Vec))) {t : Tile} {h : Hook} {r0 : ℚ}
    (hh : t.hooks = [h]) (hm : h.ctype = .movingStd) (hr : t.range = some r0) (h0 : 0 ≤ r0) :
    ∃ r k, (runCalls std t calls).1 = { t with range := some r, updIdx := k } ∧
      MeanOf r0 t.updIdx
        ((stdVals std t.stdAlpha (calls.map (·.1))).take (h.maxSamples - t.updIdx)) r k := by
  induction calls generalizing t r0 with
  | nil =>
    refine ⟨r0, t.updIdx, ?_, by simpa [stdVals] using mean_nil h0⟩
    simp only [runCalls]
    rw [← hr]
  | cons c cs ih =>
    simp only [runCalls]
    rw [callTile_single hh, runHook_moving (.inr hm)]
    have hne : h.ctype ≠ .movingQuantile := by rw [hm]; decide
    have ht : { t with hooks := [h] } = t := by rw [← hh]
    unfold movingVal
    rw [if_neg hne]
    by_cases hi : t.updIdx < h.maxSamples
    · rw [if_pos hi]
      simp only
      cases hs : std (dropZero c.1) with
      | none =>
        simp only [Option.map_none, movingUpd, ht]
        obtain ⟨r, k, e1, e3⟩ := ih hh hr h0
        refine ⟨r, k, e1, ?_⟩
        have : stdVals std t.stdAlpha (List.map (·.1) (c :: cs)) =
            stdVals std t.stdAlpha (cs.map (·.1)) := by
          simp [stdVals, ← dropZero_eq, hs]
        rw [this]; exact e3
      | some d =>
        simp only [Option.map_some, movingUpd]
        by_cases hp : 0 < t.stdAlpha * d
        · simp only [if_pos hp, hr]
          obtain ⟨r, k, e1, e3⟩ := ih (t := { t with
            range := some |(r0 * t.updIdx + t.stdAlpha * d) / (t.updIdx + 1)|
            updIdx := t.updIdx + 1, hooks := [h] }) rfl rfl (abs_nonneg _)
          refine ⟨r, k, ?_, ?_⟩
          · rw [e1, ← hh]
          · have : stdVals std t.stdAlpha (List.map (·.1) (c :: cs)) =
                (t.stdAlpha * d) :: stdVals std t.stdAlpha (cs.map (·.1)) := by
              simp only [stdVals, List.map_cons]
              rw [List.filterMap_cons_some (b := t.stdAlpha * d) (by rw [← dropZero_eq, hs]; rfl),
                List.filter_cons_of_pos (by simpa using hp)]
            rw [this]
            obtain ⟨n, hn⟩ : ∃ n, h.maxSamples - t.updIdx = n + 1 :=
              ⟨h.maxSamples - t.updIdx - 1, by omega⟩
            rw [hn, List.take_succ_cons]
            apply mean_cons h0 hp
            have hn' : h.maxSamples - (t.updIdx + 1) = n := by omega
            simp only [hn'] at e3
            exact e3
        · simp only [if_neg hp, ht]
          obtain ⟨r, k, e1, e3⟩ := ih hh hr h0
          refine ⟨r, k, e1, ?_⟩
          have : stdVals std t.stdAlpha (List.map (·.1) (c :: cs)) =
              stdVals std t.stdAlpha (cs.map (·.1)) := by
            simp only [stdVals, List.map_cons]
            rw [List.filterMap_cons_some (b := t.stdAlpha * d) (by rw [← dropZero_eq, hs]; rfl),
              List.filter_cons_of_neg (by simpa using hp)]
          rw [this]; exact e3
    · rw [if_neg hi]
      simp only [movingUpd, ht]
      obtain ⟨r, k, e1, e3⟩ := ih hh hr h0
      refine ⟨r, k, e1, ?_⟩
      have hz : h.maxSamples - t.updIdx = 0 := by omega
      rw [hz, List.take_zero] at e3 ⊢
      exact e3

/-! ### One calibrated tile -/

/-- The tile as it is when the hooks are registered. -/
def prepared (a : Args) (t : Tile) : Tile :=
  { enableRange t with
    initFromData := 0, stdAlpha := a.stdAlpha.getD t.stdAlpha, noiseMgmt := false
    perfect := t.perfect || cachingType a.ctype
    ctx := t.ctx + (if t.noiseMgmt || (cachingType a.ctype && !t.perfect) then 1 else 0)
    hooks := [{ ctype := a.ctype, quantile := a.quantile, maxSamples := a.maxSamples }] }

theorem enableRange_frame (t : Tile) : (enableRange t).hasForward = t.hasForward ∧
    (enableRange t).noiseMgmt = t.noiseMgmt ∧ (enableRange t).perfect = t.perfect ∧
    (enableRange t).ctx = t.ctx ∧ (enableRange t).hooks = t.hooks ∧ (enableRange t).enable = true ∧
    (enableRange t).info = t.info ∧ (enableRange t).initValue = t.initValue := by
  unfold enableRange
  by_cases h : t.enable = true <;> simp [h]

theorem prepare_ok {a : Args} {t : Tile} (hf : t.hasForward = true) (hfe : a.force = true ∨ t.enable = true)
    (hh : t.hooks = []) (h : (prepare a t).2.2 = .none) :
    prepare a t = (prepared a t, some t.perfect, .none) := by
  unfold prepare at h ⊢
  have hc2 : ¬ ((!a.force && !t.enable) = true) := by
    rcases hfe with e | e <;> simp [e]
  obtain ⟨f1, f2, f3, f4, f5, f6, _⟩ := enableRange_frame t
  simp only [hf, Bool.not_true, Bool.false_eq_true, if_false, if_neg hc2] at h ⊢
  by_cases hn : ((enableRange t).noiseMgmt && !a.force) = true
  · rw [if_pos hn] at h; simp at h
  · rw [if_neg hn]
    unfold prepared
    simp only [f3, f2, f4, f5, hh, List.nil_append]
    congr 2
    cases t.perfect <;> simp

theorem enable_of_ok {std : List Vec → Option ℚ} {a : Args} {t : Tile}
    {calls : List (List Vec × (List Vec → List Vec))} (hf : t.hasForward = true)
    (hh : t.hooks = []) (h : (tileResult std a t calls).2 = .none) :
    a.force = true ∨ t.enable = true := by
  by_contra hc
  push Not at hc
  obtain ⟨h1, h2⟩ := hc
  have h1 : a.force = false := by simpa using h1
  have h2 : t.enable = false := by simpa using h2
  have hp : prepare a t = (t, .none, .none) := by
    unfold prepare
    simp [hf, h1, h2]
  unfold tileResult at h
  rw [hp] at h
  simp only [ownCache, dropOwn] at h
  have hfr : ∀ (calls : List (List Vec × (List Vec → List Vec))),
      (runCalls std t calls).1 = t := by
    intro calls
    induction calls with
    | nil => rfl
    | cons c cs ih =>
      have : callTile std c.2 c.1 t = (t, .none) := by
        unfold callTile
        rw [hh]
        simp only [runHooks]
        rw [← hh]
      simp only [runCalls, this]
      exact ih
  rw [hfr] at h
  unfold finish at h
  rw [(enableRange_frame t).1, hf] at h
  simp at h

end Aihw.Calib
