import Verif.Mvm.Props

/-!
# C06: the converter chain of the torch matrix-vector product, written as a relation
-/
namespace Aihw.Mvm

/-! ## Specification -/

/-- `q` is `z` rounded to the grid of a converter with resolution `res` and range `bound`: a grid point,
at most half a step away (one step with stochastic rounding); no rounding without resolution. -/
def Rounds (res bound : ℚ) (sto : Bool) (z q : ℚ) : Prop :=
  (res ≤ 0 → q = z) ∧
  (0 < res → (∃ k : ℤ, q = k * docStep res bound) ∧
    |q - z| ≤ if sto then docStep res bound else docStep res bound / 2)

/-- `q` is `z` clipped to the range, if there is one. -/
def Clips (bound z q : ℚ) : Prop := (0 < bound → q = max (-bound) (min z bound)) ∧ (bound ≤ 0 → q = z)

/-- `q` is `z` with negative values scaled by `1 - a`. -/
def Scales (a z q : ℚ) : Prop := (z < 0 → q = z * (1 - a)) ∧ (0 ≤ z → q = z)

/-- What the input stage makes of the value `x` divided by `α`: round, clip, add noise `σ·n`, asymmetry. -/
def InputStage (p : IOPars) (α n x v : ℚ) : Prop :=
  ∃ r c, Rounds p.inpRes p.inpBound p.inpStoRound (x / α) r ∧ Clips p.inpBound r c ∧
    Scales p.inpAsymmetry (c + max p.inpNoise 0 * n) v

/-- What the output stage makes of the analog sum `z` on a line with noise level `σ`: asymmetry, noise,
round, clip. -/
def OutputStage (p : IOPars) (σ n z v : ℚ) : Prop :=
  ∃ a r, Scales p.outAsymmetry z a ∧ Rounds p.outRes p.outBound p.outStoRound (a + σ * n) r ∧
    Clips p.outBound r v

/-! ## Proof -/

theorem scales_asym (a v : ℚ) : Scales a v (asym a v) := by
  unfold Scales asym
  constructor
  · intro h
    by_cases ha : a = 0
    · simp [ha]
    · simp [ha, h]
  · intro h
    rw [if_neg (fun hc => absurd hc.2 (not_lt.2 h))]

theorem clips_clampBound (b v : ℚ) : Clips b v (clampBound b v) := by
  unfold Clips clampBound clamp
  constructor
  · intro h
    rw [if_pos h, max_min_distrib_left, max_comm, max_eq_right (by linarith : -b ≤ b)]
  · intro h
    rw [if_neg (not_lt.2 h)]

theorem rounds_quantize {res bound : ℚ} (hb : 0 < res → 0 < bound) (sto : Bool) {u : ℚ}
    (hu1 : -1 / 2 ≤ u) (hu2 : u ≤ 1 / 2) {z q : ℚ}
    (h : (if res > 0 then uniformQuantize z res bound (if sto then some u else none) else pure z)
      = .ok q) : Rounds res bound sto z q := by
  constructor
  · intro hr
    rw [if_neg (not_lt.2 hr)] at h
    cases h
    rfl
  · intro hr
    rw [if_pos hr] at h
    cases sto with
    | true =>
      obtain ⟨v, h1, h2, h3, -⟩ := C05_stochastic z u hr (hb hr) hu1 hu2
      simp only [if_true] at h
      rw [h] at h1
      cases h1
      exact ⟨h2, by simpa using h3⟩
    | false =>
      obtain ⟨v, h1, h2, h3⟩ := C05_grid_and_error z hr (hb hr).ne'
      simp only [Bool.false_eq_true, if_false] at h
      rw [h] at h1
      cases h1
      refine ⟨h2, ?_⟩
      simp only [Bool.false_eq_true, if_false]
      have hs := qStep_pos hr (hb hr)
      rw [qStep_eq_docStep] at hs
      rwa [abs_of_pos hs] at h3

theorem prepare_stage {p : IOPars} (hb : 0 < p.inpRes → 0 < p.inpBound) {sc : Scale} {i : Nat} {α : ℚ}
    (hsc : sc.at i = 1 / α) (hn : isScaling sc = false → sc = .num 1) {u n x v : ℚ}
    (hu1 : -1 / 2 ≤ u) (hu2 : u ≤ 1 / 2)
    (h : prepareElem p (sc.at i) (isScaling sc) u n x = .ok v) : InputStage p α n x v := by
  have hz : (if isScaling sc then x * sc.at i else x) = x / α := by
    cases hs : isScaling sc with
    | true => simp only [if_true]; rw [hsc, mul_one_div]
    | false =>
      have := hn hs
      subst this
      simp only [Bool.false_eq_true, if_false]
      have hα : α = 1 := by
        simp only [Scale.at] at hsc
        have h0 : α ≠ 0 := by rintro rfl; simp at hsc
        field_simp at hsc
        exact hsc
      rw [hα, div_one]
  unfold prepareElem dacValue at h
  rw [hz] at h
  simp only [bind, Except.bind] at h
  obtain ⟨r, hq, h⟩ : ∃ r, (if p.inpRes > 0 then uniformQuantize (x / α) p.inpRes p.inpBound
      (if p.inpStoRound = true then some u else none) else pure (x / α)) = .ok r ∧
      asym p.inpAsymmetry (if p.inpNoise > 0 then clampBound p.inpBound r + p.inpNoise * n
        else clampBound p.inpBound r) = v := by
    by_cases hr : p.inpRes > 0
    · rw [if_pos hr] at h ⊢
      cases hq : uniformQuantize (x / α) p.inpRes p.inpBound
          (if p.inpStoRound = true then some u else none) with
      | error e => rw [hq] at h; cases h
      | ok r =>
        rw [hq] at h
        simp only [pure, Except.pure, Except.ok.injEq] at h
        exact ⟨r, rfl, h⟩
    · rw [if_neg hr] at h ⊢
      simp only [pure, Except.pure, Except.ok.injEq] at h
      exact ⟨_, rfl, h⟩
  · skip
    refine ⟨r, _, rounds_quantize hb _ hu1 hu2 hq, clips_clampBound _ _, ?_⟩
    rw [← h]
    have : (if p.inpNoise > 0 then clampBound p.inpBound r + p.inpNoise * n else clampBound p.inpBound r)
        = clampBound p.inpBound r + max p.inpNoise 0 * n := by
      by_cases h0 : p.inpNoise > 0
      · rw [if_pos h0, max_eq_left h0.le]
      · rw [if_neg h0, max_eq_right (not_lt.1 h0), zero_mul, add_zero]
    rw [this]
    exact scales_asym _ _

theorem output_stage {p : IOPars} (hb : 0 < p.outRes → 0 < p.outBound) {onv : Option (Nat → ℚ)} {j : Nat}
    {u n z v : ℚ} (hu1 : -1 / 2 ≤ u) (hu2 : u ≤ 1 / 2)
    (h : adcPreClip p onv j n u z = .ok v) :
    OutputStage p (onv.elim (max p.outNoise 0) fun f => f j) n z (clampBound p.outBound v) := by
  unfold adcPreClip at h
  refine ⟨_, v, scales_asym _ _, rounds_quantize hb _ hu1 hu2 ?_, clips_clampBound _ _⟩
  have : addOutNoise p onv j n (asym p.outAsymmetry z) =
      asym p.outAsymmetry z + (onv.elim (max p.outNoise 0) fun f => f j) * n := by
    unfold addOutNoise
    cases onv with
    | none =>
      by_cases h0 : p.outNoise > 0
      · simp only [Option.elim]; rw [if_pos h0, max_eq_left h0.le]
      · simp only [Option.elim]; rw [if_neg h0, max_eq_right (not_lt.1 h0), zero_mul, add_zero]
    | some f => simp only [Option.elim]; ring
  rw [← this]
  exact h

/-- **C06 (the whole chain).**  A successful product of a non-perfect tile either is the all-zero shortcut
(all noise management values are zero and there is no input noise), or there is one round `k` of the bound
management (0 without it) such that every sample `x` is treated as documented: with the divisor
`α = factor(x) · 2^k`, every input goes through the input stage, the weight rows are multiplied with the
resulting vector, and every sum goes through the output stage and is multiplied by `out_scale · α`. -/
theorem C06_chain {p : IOPars} (hperf : p.isPerfect = false) (hid : p.mvType ≠ .ideal)
    (hib : 0 < p.inpRes → 0 < p.inpBound) (hob : 0 < p.outRes → 0 < p.outBound)
    {inSize : Nat} {w : Mat} {trans : Bool} {onv : Option (Nat → ℚ)} {d : Draws}
    (hiu : ∀ k i j, -1 / 2 ≤ d.inpU k i j ∧ d.inpU k i j ≤ 1 / 2)
    (hou : ∀ k i j, -1 / 2 ≤ d.outU k i j ∧ d.outU k i j ≤ 1 / 2) {xs ys : List Vec}
    (h : matmul p inSize w trans onv d xs = .ok ys) :
    (p.inpNoise ≤ 0 ∧ p.noiseManagement ≠ .none ∧ ys = xs.map fun _ => List.replicate
      (if trans then inSize else w.length) 0) ∨
    ∃ k, (p.boundManagement = .none → k = 0) ∧ ys.length = xs.length ∧
      ∀ i (hi : i < xs.length) (hi' : i < ys.length),
        ys[i].length = (effMat inSize w trans).length ∧
        ∃ v : Vec, v.length = xs[i].length ∧
          (∀ j (hj : j < xs[i].length) (hj' : j < v.length),
            InputStage p (nmFactor p xs[i] * 2 ^ k) (d.inpN k i j) xs[i][j] v[j]) ∧
          ∀ o (ho : o < (effMat inSize w trans).length) (ho' : o < ys[i].length),
            ∃ c, OutputStage p (onv.elim (max p.outNoise 0) fun f => f o) (d.outN k i o)
                (dot (effMat inSize w trans)[o] v) c ∧
              ys[i][o] = p.outScale * (nmFactor p xs[i] * 2 ^ k) * c := by
  rcases matmul_cases hperf hid h with ⟨nm, hnm, hs, rfl⟩ | ⟨nm, _, _, k, b, out, sc, h1, h2, h3, h4, h5, h6⟩
  · left
    cases nm with
    | num q => simp [isShortcut] at hs
    | per l =>
      simp only [isShortcut, Bool.and_eq_true, decide_eq_true_eq] at hs
      refine ⟨hs.1, ?_, rfl⟩
      intro hc
      unfold computeNM at hnm
      rw [hc] at hnm
      cases hnm
  · right
    refine ⟨k, h2, ?_⟩
    unfold computeAnalogMV at h1
    simp only [bind, Except.bind] at h1
    split at h1
    · cases h1
    · rename_i prep hprep
      obtain ⟨hl, hprep⟩ := mapIdxE_ok hprep
      split at h1
      · unfold finalizeOutput at h1
        simp only [bind, Except.bind] at h1
        split at h1
        · cases h1
        · rename_i vs hvs
          obtain ⟨hl2, hvs⟩ := mapIdxE_ok hvs
          simp only [pure, Except.pure, Except.ok.injEq, Prod.mk.injEq] at h1
          obtain ⟨-, rfl⟩ := h1
          have hlb : (baseMatmul inSize w trans prep).length = prep.length := by
            unfold baseMatmul; rw [List.length_map]
          have hne : ∀ i, i < (vs.map fun y => y.map (clampBound p.outBound)).length → sc.at i ≠ 0 := by
            intro i hi
            rw [List.length_map] at hi
            have hi' : i < xs.length := by omega
            rw [h4 i hi']
            have := nmFactor_pos p xs[i]
            positivity
          rw [rescale_spec p _ hne h5, Except.ok.injEq] at h6
          subst h6
          refine ⟨by simp; omega, ?_⟩
          intro i hi hi'
          have hiv : i < vs.length := by omega
          have hip : i < prep.length := by omega
          have hrow := hvs i (by omega) hiv
          have hbm : (baseMatmul inSize w trans prep)[i]'(by omega) =
              matVec (effMat inSize w trans) prep[i] := by
            unfold baseMatmul effMat; rw [List.getElem_map]
          rw [hbm] at hrow
          obtain ⟨hl3, hrow⟩ := mapIdxE_ok hrow
          have hml : (matVec (effMat inSize w trans) prep[i]).length =
              (effMat inSize w trans).length := by unfold matVec; rw [List.length_map]
          obtain ⟨hl4, hin⟩ := mapIdxE_ok (hprep i hi hip)
          refine ⟨by simp [hl3, hml], prep[i], hl4, ?_, ?_⟩
          · intro j hj hj'
            exact prepare_stage hib (h4 i hi) h5 (hiu k i j).1 (hiu k i j).2 (hin j hj hj')
          · intro o ho ho'
            have hov : o < vs[i].length := by rw [hl3, hml]; exact ho
            have hz := hrow o (by rw [hml]; exact ho) hov
            have hdot : (matVec (effMat inSize w trans) prep[i])[o]'(by rw [hml]; exact ho) =
                dot (effMat inSize w trans)[o] prep[i] := by unfold matVec; rw [List.getElem_map]
            rw [hdot] at hz
            refine ⟨_, output_stage hob (hou k i o).1 (hou k i o).2 hz, ?_⟩
            simp only [List.getElem_mapIdx, List.getElem_map]
            refine (congrArg (fun a => clampBound p.outBound vs[i][o] * (p.outScale / a)) (h4 i hi)).trans ?_
            have := nmFactor_pos p xs[i]
            field_simp
      · cases h1
      · cases h1

example : matmul { outNoise := 1 / 10, inpRes := 1 / 4, outRes := 1 / 8, outBound := 4 } 2
    [[1, 0], [0, 1]] false none ⟨fun _ _ _ => 0, fun _ _ _ => 0, fun _ _ _ => 1, fun _ _ _ => 0⟩ [[1, -2]] =
    .ok [[2, -2]] := by decide +kernel

end Aihw.Mvm
