import Verif.Mvm.Lemmas2

/-!
# Properties C05–C09: discretization and the analog matrix-vector product
-/
namespace Aihw.Mvm

/-! ## C05 -/

/-- **C05** Deterministic rounding returns a grid point at most half a step away. -/
theorem C05_grid_and_error (x : ℚ) {res bound : ℚ} (hr : 0 < res) (hb : bound ≠ 0) :
    ∃ v, uniformQuantize x res bound none = .ok v ∧
      (∃ k : ℤ, v = k * docStep res bound) ∧ |v - x| ≤ |docStep res bound| / 2 := by
  refine ⟨_, uniformQuantize_eq x none hr hb, ⟨_, by rw [qStep_eq_docStep]⟩, ?_⟩
  have hs := qStep_ne_zero hr hb
  have h := abs_sub_roundHE (x / qStep res bound + (none : Option ℚ).getD 0)
  rw [qStep_eq_docStep] at *
  simp only [Option.getD_none, add_zero] at h ⊢
  have e : (roundHE (x / docStep res bound) : ℚ) * docStep res bound - x
      = -(x / docStep res bound - roundHE (x / docStep res bound)) * docStep res bound := by
    field_simp; ring
  rw [e, abs_mul, abs_neg]
  have := mul_le_mul_of_nonneg_right h (abs_nonneg (docStep res bound))
  linarith

example : uniformQuantize (3 / 10) (1 / 4) 1 none = .ok (1 / 2) ∧
    uniformQuantize (3 / 10) 8 1 none = .ok (1 / 4) := by
  constructor <;> (rw [uniformQuantize_eq _ _ (by norm_num) (by norm_num)]; norm_num [qStep, roundHE])

/-- **C05** With stochastic rounding (draw `u ∈ [-1/2, 1/2]`) the result is a grid point at most one
step away, and it is the upper/lower neighbour exactly according to the draw being above/below
`1/2 - frac`: so the probability of rounding up is the fractional part (unbiased rounding). -/
theorem C05_stochastic (x u : ℚ) {res bound : ℚ} (hr : 0 < res) (hb : 0 < bound)
    (hu1 : -1 / 2 ≤ u) (hu2 : u ≤ 1 / 2) :
    ∃ v, uniformQuantize x res bound (some u) = .ok v ∧
      (∃ k : ℤ, v = k * docStep res bound) ∧ |v - x| ≤ docStep res bound ∧
      (1 / 2 - Int.fract (x / docStep res bound) < u →
        v = (⌊x / docStep res bound⌋ + 1) * docStep res bound) ∧
      (-1 / 2 < u → u < 1 / 2 - Int.fract (x / docStep res bound) →
        v = ⌊x / docStep res bound⌋ * docStep res bound) := by
  refine ⟨_, uniformQuantize_eq x (some u) hr hb.ne', ⟨_, by rw [qStep_eq_docStep]⟩, ?_, ?_, ?_⟩
  · have hs := qStep_pos hr hb
    rw [qStep_eq_docStep] at *
    have h := abs_sub_roundHE (x / docStep res bound + (some u).getD 0)
    simp only [Option.getD_some] at h ⊢
    have e : (roundHE (x / docStep res bound + u) : ℚ) * docStep res bound - x
      = (roundHE (x / docStep res bound + u) - x / docStep res bound) * docStep res bound := by
      field_simp
    rw [e, abs_mul, abs_of_pos hs]
    have h2 : |(roundHE (x / docStep res bound + u) : ℚ) - x / docStep res bound| ≤ 1 := by
      rw [abs_le] at h ⊢
      constructor <;> linarith [h.1, h.2]
    nlinarith
  · intro h
    rw [qStep_eq_docStep]
    simp only [Option.getD_some]
    have hf := Int.self_sub_fract (x / docStep res bound)
    have hf1 := Int.fract_nonneg (x / docStep res bound)
    have hf2 := Int.fract_lt_one (x / docStep res bound)
    rw [roundHE_eq_of_abs_lt (n := ⌊x / docStep res bound⌋ + 1)]
    · push_cast; ring
    · push_cast
      rw [abs_lt]; constructor <;> linarith
  · intro h0 h
    rw [qStep_eq_docStep]
    simp only [Option.getD_some]
    have hf := Int.self_sub_fract (x / docStep res bound)
    have hf1 := Int.fract_nonneg (x / docStep res bound)
    rw [roundHE_eq_of_abs_lt (n := ⌊x / docStep res bound⌋)]
    rw [abs_lt]
    constructor <;> linarith

example : (0 : ℚ) < 1 / 4 ∧ (0 : ℚ) < 1 ∧ (-1 / 2 : ℚ) ≤ 1 / 3 ∧ (1 / 3 : ℚ) ≤ 1 / 2 := by norm_num

/-- **C05** Discretization preserves order. -/
theorem C05_monotone {x y res bound : ℚ} (hxy : x ≤ y) {v v' : ℚ}
    (hv : uniformQuantize x res bound none = .ok v) (hv' : uniformQuantize y res bound none = .ok v') :
    v ≤ v' := by
  obtain ⟨hr, hb⟩ := uniformQuantize_ok hv
  rw [uniformQuantize_eq _ _ hr hb, Except.ok.injEq] at hv hv'
  rw [← hv, ← hv']
  simp only [Option.getD_none, add_zero]
  rcases lt_or_gt_of_ne (qStep_ne_zero hr hb) with hs | hs
  · have h1 : y / qStep res bound ≤ x / qStep res bound := by
      rw [div_le_div_right_of_neg hs]; exact hxy
    have h2 : ((roundHE (y / qStep res bound) : ℤ) : ℚ) ≤ roundHE (x / qStep res bound) := by
      exact_mod_cast roundHE_mono h1
    nlinarith
  · have h1 : x / qStep res bound ≤ y / qStep res bound := (div_le_div_iff_of_pos_right hs).2 hxy
    have h2 : ((roundHE (x / qStep res bound) : ℤ) : ℚ) ≤ roundHE (y / qStep res bound) := by
      exact_mod_cast roundHE_mono h1
    exact mul_le_mul_of_nonneg_right h2 hs.le

/-- **C05** Discretization is odd. -/
theorem C05_odd {x res bound v : ℚ} (hv : uniformQuantize x res bound none = .ok v) :
    uniformQuantize (-x) res bound none = .ok (-v) := by
  obtain ⟨hr, hb⟩ := uniformQuantize_ok hv
  rw [uniformQuantize_eq _ _ hr hb, Except.ok.injEq] at hv
  rw [uniformQuantize_eq _ _ hr hb, ← hv]
  simp only [Option.getD_none, add_zero]
  rw [neg_div, roundHE_neg]; push_cast; congr 1; ring

/-- **C05** Grid points are fixed, hence discretization is idempotent. -/
theorem C05_idempotent {x res bound v : ℚ} (noise : Option ℚ)
    (hv : uniformQuantize x res bound noise = .ok v) : uniformQuantize v res bound none = .ok v := by
  obtain ⟨hr, hb⟩ := uniformQuantize_ok hv
  rw [uniformQuantize_eq _ _ hr hb, Except.ok.injEq] at hv
  rw [uniformQuantize_eq _ _ hr hb]
  simp only [Option.getD_none, add_zero]
  conv_lhs => rw [← hv]
  rw [mul_div_cancel_right₀ _ (qStep_ne_zero hr hb), roundHE_intCast, ← hv]

/-- **C05** It raises exactly for a non-positive resolution and is undefined (division by zero)
exactly for a zero bound. -/
theorem C05_errors (x res bound : ℚ) (noise : Option ℚ) :
    (uniformQuantize x res bound noise = .error .assertion ↔ res ≤ 0) ∧
    (uniformQuantize x res bound noise = .error .nanInf ↔ 0 < res ∧ bound = 0) := by
  by_cases hr : 0 < res
  · by_cases hb : bound = 0
    · subst hb
      have : uniformQuantize x res 0 noise = .error .nanInf := by
        unfold uniformQuantize
        rw [if_neg (not_le.2 (resEff_pos hr))]
        simp [qStep]
      rw [this]; simp [hr]
    · rw [uniformQuantize_eq _ _ hr hb]; simp [hb, hr]
  · have : uniformQuantize x res bound noise = .error .assertion := by
      unfold uniformQuantize
      rw [if_pos (resEff_nonpos (not_lt.1 hr))]
    rw [this]; simp [hr, not_lt.1 hr]

/-! ## C06 -/

/-- **C06** The value the DAC emits (before input noise and asymmetry) is within the input bound,
and the value entering the crossbar is that value plus scaled noise. -/
theorem C06_dac_within_bound {p : IOPars} (hb : 0 < p.inpBound) {s : ℚ} {scaling : Bool}
    {u n x v : ℚ} (h : prepareElem p s scaling u n x = .ok v) :
    ∃ dac, |dac| ≤ p.inpBound ∧
      v = asym p.inpAsymmetry (dac + (if p.inpNoise > 0 then p.inpNoise * n else 0)) := by
  unfold prepareElem at h
  cases hd : dacValue p s scaling u x with
  | error e => simp [hd, bind, Except.bind] at h
  | ok dac =>
    simp only [hd, bind, Except.bind, pure, Except.pure, Except.ok.injEq] at h
    refine ⟨dac, ?_, ?_⟩
    · unfold dacValue at hd
      simp only [bind, Except.bind, pure, Except.pure] at hd
      have hcl : ∀ v, |clampBound p.inpBound v| ≤ p.inpBound := by
        intro v
        simp only [clampBound, hb, if_true, abs_le]
        exact ⟨le_clamp (by linarith) _, clamp_le _ _ _⟩
      split at hd
      · split at hd
        · cases hd
        · cases hd; exact hcl _
      · cases hd; exact hcl _
    · rw [← h]; split_ifs <;> simp

/-- **C06** Without input noise and asymmetry everything entering the crossbar is within the bound. -/
theorem C06_input_within_bound {p : IOPars} (hb : 0 < p.inpBound) (hn : p.inpNoise ≤ 0)
    (ha : p.inpAsymmetry = 0) {s : ℚ} {scaling : Bool}
    {u n x v : ℚ} (h : prepareElem p s scaling u n x = .ok v) : |v| ≤ p.inpBound := by
  obtain ⟨dac, h1, h2⟩ := C06_dac_within_bound hb h
  rw [h2, if_neg (not_lt.2 hn), add_zero]
  simpa [asym, ha] using h1

/-- The largest factor by which bound management may scale up the outputs. -/
def bmMaxGain (p : IOPars) : ℚ := if p.boundManagement = .none then 1 else max 1 (2 * p.maxBmFactor)

/-- **C06** API level: every output entry is bounded by the ADC bound times the documented input
scale, the bound-management gain and `out_scale`, for all weights, inputs and noise draws. -/
theorem C06_output_within_bound {p : IOPars} (hperf : p.isPerfect = false) (hid : p.mvType ≠ .ideal)
    (hb : 0 < p.outBound) {inSize : Nat} {w : Mat} {trans : Bool} {onv : Option (Nat → ℚ)}
    {d : Draws} {xs ys : List Vec} (h : matmul p inSize w trans onv d xs = .ok ys) :
    ys.length = xs.length ∧ ∀ i (hi : i < xs.length) (hi' : i < ys.length), ∀ v ∈ ys[i],
      |v| ≤ p.outBound * nmFactor p xs[i] * bmMaxGain p * |p.outScale| := by
  rcases matmul_cases hperf hid h with ⟨nm, _, _, rfl⟩ | ⟨nm, _, _, k, b, out, sc, h1, h2, h3, h4, h5, h6⟩
  · refine ⟨by simp, ?_⟩
    intro i hi hi' v hv
    simp only [List.getElem_map] at hv
    rw [List.eq_of_mem_replicate hv, abs_zero]
    have := nmFactor_pos p xs[i]
    have hg : 0 < bmMaxGain p := by
      unfold bmMaxGain; split_ifs
      · norm_num
      · exact lt_of_lt_of_le one_pos (le_max_left _ _)
    positivity
  · obtain ⟨hl, hbd, _⟩ := computeAnalogMV_shape h1
    replace hbd := hbd hb
    have hne : ∀ i, i < out.length → sc.at i ≠ 0 := by
      intro i hi
      have hi' : i < xs.length := by omega
      rw [h4 i hi']
      have := nmFactor_pos p xs[i]
      positivity
    rw [rescale_spec p out hne h5, Except.ok.injEq] at h6
    subst h6
    refine ⟨by simp [hl], ?_⟩
    intro i hi hi' v hv
    simp only [List.getElem_mapIdx, List.mem_map] at hv
    obtain ⟨y, hy, rfl⟩ := hv
    have hy' := hbd _ (List.getElem_mem (by omega)) y hy
    rw [h4 i hi]
    have hnf := nmFactor_pos p xs[i]
    have hk : (2 : ℚ) ^ k ≤ bmMaxGain p := by
      unfold bmMaxGain
      split_ifs with hbm
      · rw [h2 hbm]; simp
      · cases k with
        | zero => simp
        | succ k =>
          have := ((h3 hbm).1 k (by omega)).1
          rw [pow_succ]
          exact le_max_of_le_right (by linarith)
    rw [show y * (p.outScale / (1 / (nmFactor p xs[i] * 2 ^ k)))
        = y * (nmFactor p xs[i] * 2 ^ k) * p.outScale by field_simp]
    rw [abs_mul, abs_mul, abs_of_pos (show 0 < nmFactor p xs[i] * 2 ^ k by positivity)]
    apply mul_le_mul_of_nonneg_right _ (abs_nonneg _)
    calc |y| * (nmFactor p xs[i] * 2 ^ k) ≤ p.outBound * (nmFactor p xs[i] * bmMaxGain p) := by
          apply mul_le_mul hy' _ (by positivity) hb.le
          exact mul_le_mul_of_nonneg_left hk hnf.le
      _ = _ := by ring

/-- the default parameters, made deterministic -/
def demoPars : IOPars := { outNoise := 0, inpRes := 0, outRes := 0 }
def demoDraws : Draws := ⟨fun _ _ _ => 0, fun _ _ _ => 0, fun _ _ _ => 0, fun _ _ _ => 0⟩

example : demoPars.isPerfect = false ∧ demoPars.mvType ≠ .ideal ∧ 0 < demoPars.outBound ∧
    matmul demoPars 2 [[1, 2], [3, 40]] false none demoDraws [[1, 1], [1, 1/2]]
      = .ok [[3, 43], [2, 23]] := by
  refine ⟨rfl, by decide, by norm_num [demoPars], by decide +kernel⟩

/-! ## C07 -/

/-- **C07** The bound-management loop always stops: the fuel of the model is never exhausted,
whatever the weights, inputs, noise draws and parameters (`.other` is the model's marker for
exhausted fuel, and is raised nowhere else). -/
theorem C07_terminates (p : IOPars) (inSize : Nat) (w : Mat) (trans : Bool) (onv : Option (Nat → ℚ))
    (d : Draws) (nm : Option Scale) (xs : List Vec) (extra : Nat) :
    bmLoop p inSize w trans onv d nm xs (bmFuel p + extra) 0
      = bmLoop p inSize w trans onv d nm xs (bmFuel p) 0 ∧
    ∃ n, n < bmFuel p ∧
      (∀ j, j < n → ∃ o s, bmRound p inSize w trans onv d nm xs j = .ok (false, o, s)) ∧
      ((∃ e, bmRound p inSize w trans onv d nm xs n = .error e) ∨
       (∃ r, bmRound p inSize w trans onv d nm xs n = .ok (true, r))) := by
  -- existence of a stopping round
  have key : ∃ n, (∀ j, j < n → ∃ o s, bmRound p inSize w trans onv d nm xs j = .ok (false, o, s)) ∧
      ¬ ∃ o s, bmRound p inSize w trans onv d nm xs n = .ok (false, o, s) := by
    by_contra hc
    push Not at hc
    have hall : ∀ n, ∃ o s, bmRound p inSize w trans onv d nm xs n = .ok (false, o, s) := by
      intro n
      induction n using Nat.strong_induction_on with
      | _ n ih => exact hc n ih
    obtain ⟨o, s, h⟩ := hall (bmFuel p)
    have := lt_fuel_of_pow_le (bmRound_false h)
    omega
  obtain ⟨n, h1, h2⟩ := key
  have hn : n < bmFuel p := by
    cases n with
    | zero => unfold bmFuel; omega
    | succ n =>
      obtain ⟨o, s, h⟩ := h1 n (by omega)
      exact lt_fuel_of_pow_le (bmRound_false h)
  have hlast : (∃ e, bmRound p inSize w trans onv d nm xs n = .error e) ∨
       (∃ r, bmRound p inSize w trans onv d nm xs n = .ok (true, r)) := by
    cases hr : bmRound p inSize w trans onv d nm xs n with
    | error e => exact .inl ⟨e, rfl⟩
    | ok v =>
      obtain ⟨st, o, s⟩ := v
      cases st with
      | true => exact .inr ⟨(o, s), rfl⟩
      | false => exact absurd ⟨o, s, hr⟩ h2
  refine ⟨?_, n, hn, h1, hlast⟩
  have herr : ∀ e, bmRound p inSize w trans onv d nm xs n = .error e → ∀ fuel m k, m < fuel → k + m = n →
      bmLoop p inSize w trans onv d nm xs fuel k = .error e := by
    intro e he fuel
    induction fuel with
    | zero => intro m k hm; omega
    | succ fuel ih =>
      intro m k hm hk
      rw [bmLoop]
      cases m with
      | zero =>
        have : k = n := by omega
        subst this
        simp [he, bind, Except.bind]
      | succ m =>
        obtain ⟨o, s, h⟩ := h1 k (by omega)
        simp only [h, bind, Except.bind, Bool.false_eq_true, if_false]
        exact ih m (k + 1) (by omega) (by omega)
  rcases hlast with ⟨e, he⟩ | ⟨r, hr⟩
  · rw [herr e he _ n 0 (by omega) (by omega), herr e he _ n 0 hn (by omega)]
  · rw [bmLoop_of _ 0 n r (by omega) (by simpa using h1) (by simpa using hr),
      bmLoop_of _ 0 n r hn (by simpa using h1) (by simpa using hr)]

/-- **C07** Number of rounds: all rounds but the last have a reduction `2^j ≤ max_bm_factor`, hence
there are at most `log2 (max_bm_factor) + 2` rounds. -/
theorem C07_round_bound (p : IOPars) (inSize : Nat) (w : Mat) (trans : Bool)
    (onv : Option (Nat → ℚ)) (d : Draws) (nm : Option Scale) (xs : List Vec) (n : Nat)
    (h : ∀ j, j < n → ∃ o s, bmRound p inSize w trans onv d nm xs j = .ok (false, o, s)) :
    n ≤ Nat.log2 ⌊p.maxBmFactor⌋.toNat + 1 := by
  cases n with
  | zero => omega
  | succ n =>
    obtain ⟨o, s, hr⟩ := h n (by omega)
    have h0 := bmRound_false hr
    have h1 : ((2 ^ n : ℕ) : ℤ) ≤ ⌊p.maxBmFactor⌋ := Int.le_floor.2 (by push_cast; exact h0)
    have h2 : 2 ^ n ≤ ⌊p.maxBmFactor⌋.toNat := by omega
    have hpos : 0 < 2 ^ n := Nat.two_pow_pos n
    have : n ≤ Nat.log2 ⌊p.maxBmFactor⌋.toNat := (Nat.le_log2 (by omega)).2 h2
    omega

/-- **C07** What the loop computes: the result is that of the first round `k` in which no output
reaches beyond the ADC bound or whose reduction `2^k` exceeds a limit (every earlier round had a
saturated output and a reduction within the limits); it used the input scale `1 / (α 2^k)`
and is scaled back by exactly `α 2^k` times `out_scale`. -/
theorem C07_result {p : IOPars} (hperf : p.isPerfect = false) (hid : p.mvType ≠ .ideal)
    (hbm : p.boundManagement ≠ .none) {inSize : Nat} {w : Mat} {trans : Bool}
    {onv : Option (Nat → ℚ)} {d : Draws} {xs ys : List Vec} {nm : Scale}
    (hnm : computeNM p xs = .ok nm) (hns : isShortcut p nm = false)
    (h : matmul p inSize w trans onv d xs = .ok ys) :
    ∃ k unclipped out sc,
      computeAnalogMV p inSize w trans onv d k sc (isScaling sc) xs = .ok (unclipped, out) ∧
      (∀ i (hi : i < xs.length), sc.at i = 1 / (nmFactor p xs[i] * 2 ^ k)) ∧
      (unclipped = true ∨ p.maxBmFactor < 2 ^ k ∨
        (0 < bmInpRes p ∧ p.maxBmRes / bmInpRes p < 2 ^ k)) ∧
      (∀ j, j < k → (2 : ℚ) ^ j ≤ p.maxBmFactor ∧
        (0 < bmInpRes p → 2 ^ j ≤ p.maxBmRes / bmInpRes p) ∧ ∃ o s,
        computeAnalogMV p inSize w trans onv d j s (isScaling s) xs = .ok (false, o) ∧
        (∀ i (hi : i < xs.length), s.at i = 1 / (nmFactor p xs[i] * 2 ^ j)) ∧
        ∃ y ∈ o, ∃ v ∈ y, |v| = p.outBound) ∧
      ys = out.mapIdx fun i y =>
        y.map fun v => v * (nmFactor p (xs.getD i []) * 2 ^ k) * p.outScale := by
  rcases matmul_cases hperf hid h with ⟨nm', e, hs, _⟩ | ⟨nm', e, _, k, b, out, sc, h1, h2, h3, h4, h5, h6⟩
  · rw [hnm] at e; cases e; rw [hns] at hs; cases hs
  · refine ⟨k, b, out, sc, h1, h4, ?_, ?_, ?_⟩
    · rcases (h3 hbm).2 with hb | hb
      · exact .inl hb
      · simp only [bmLimitReached, Bool.or_eq_true, Bool.and_eq_true, decide_eq_true_eq,
          gt_iff_lt] at hb
        exact .inr hb
    · intro j hj
      obtain ⟨g1, o, s, g3, g4, g2, g5⟩ := (h3 hbm).1 j hj
      simp only [bmLimitReached, Bool.or_eq_false_iff, Bool.and_eq_false_iff,
        decide_eq_false_iff_not, not_lt, gt_iff_lt] at g5
      refine ⟨g1, ?_, o, s, g2, g4, ((computeAnalogMV_shape g2).2.2 rfl).2⟩
      intro hr
      rcases g5.2 with h | h
      · linarith
      · exact h
    · have hl := (computeAnalogMV_shape h1).1
      have hne : ∀ i, i < out.length → sc.at i ≠ 0 := by
        intro i hi
        have hi' : i < xs.length := by omega
        rw [h4 i hi']
        have := nmFactor_pos p xs[i]
        positivity
      rw [rescale_spec p out hne h5, Except.ok.injEq] at h6
      rw [← h6]
      apply List.ext_getElem
      · simp
      · intro i hi1 hi2
        have hi : i < xs.length := by simpa [hl] using hi1
        simp only [List.getElem_mapIdx, h4 i hi, List.getD_eq_getElem?_getD,
          List.getElem?_eq_getElem hi, Option.getD_some]
        apply List.map_congr_left
        intro v _
        have := nmFactor_pos p xs[i]
        field_simp

example : demoPars.boundManagement ≠ .none ∧
    (∃ nm, computeNM demoPars [[1, 1], [1, 1/2]] = .ok nm ∧ isShortcut demoPars nm = false) := by
  refine ⟨by decide, _, rfl, by decide +kernel⟩

/-! ## C08 -/

/-- **C08** With an ideal converter chain (no noise, discretization or asymmetry), whenever the scaled
inputs stay within the input bound and the scaled products within the output bound (times what bound
management can compensate), the result is exactly `out_scale · W x` for noise management None, AbsMax
and Constant — and for Max unless the maximum of every sample is exactly 0. -/
theorem C08_noise_management_transparent {p : IOPars} {onv : Option (Nat → ℚ)}
    (hi : IdealChain p onv) {inSize : Nat} {w : Mat} {trans : Bool} {d : Draws} {xs : List Vec}
    (hperf : p.isPerfect = false)
    (hnm1 : p.noiseManagement ≠ .absMaxNPSum) (hnm2 : p.noiseManagement ≠ .averageAbsMax)
    (hne : ∀ x ∈ xs, x ≠ [])
    (hmax : p.noiseManagement = .max → ∃ x ∈ xs, x.tail.foldr max (x.headD 0) ≠ 0)
    (hin : p.inpBound ≤ 0 ∨ ∀ x ∈ xs, ∀ v ∈ x, |v| ≤ p.inpBound * nmFactor p x)
    (hout : p.outBound ≤ 0 ∨ ∀ x ∈ xs, ∀ v ∈ matVec (effMat inSize w trans) x,
      |v| ≤ p.outBound * nmFactor p x * bmReach p) :
    matmul p inSize w trans onv d xs
      = .ok (xs.map fun x => (matVec (effMat inSize w trans) x).map (p.outScale * ·)) := by
  -- inputs never clip at any round
  have hin' : ∀ (k : Nat) (sc : Scale), (∀ i (h : i < xs.length), sc.at i = 1 / (nmFactor p xs[i] * 2 ^ k)) →
      p.inpBound ≤ 0 ∨ ∀ i (h : i < xs.length), ∀ v ∈ xs[i], |v * sc.at i| ≤ p.inpBound := by
    intro k sc hsc
    rcases hin with h | h
    · exact .inl h
    · by_cases hb : p.inpBound ≤ 0
      · exact .inl hb
      right
      intro i hi' v hv
      have h1 := h _ (List.getElem_mem hi') v hv
      have h2 := nmFactor_pos p xs[i]
      have h3 : (1 : ℚ) ≤ 2 ^ k := one_le_pow₀ (by norm_num)
      have h4 : 0 < nmFactor p xs[i] * 2 ^ k := by positivity
      rw [hsc i hi', mul_one_div, abs_div, abs_of_pos h4, div_le_iff₀ h4]
      have : 0 < p.inpBound * nmFactor p xs[i] := mul_pos (not_le.1 hb) h2
      nlinarith
  have hidl : p.mvType ≠ .ideal := by rw [hi.mv]; decide
  -- the call succeeds
  have hok : ∃ ys, matmul p inSize w trans onv d xs = .ok ys := by
    obtain ⟨nm, hnm⟩ := computeNM_ok_of (xs := xs) hnm1 hnm2 (fun _ => hne)
    obtain ⟨hn1, hn2, hn3, hn4⟩ := computeNM_spec hnm
    unfold matmul
    simp only [hperf, hidl, Bool.false_or, decide_false, Bool.false_eq_true, if_false, hnm, bind,
      Except.bind]
    by_cases hsc : isShortcut p nm = true
    · simp [hsc, pure, Except.pure]
    · simp only [hsc, Bool.false_eq_true, if_false]
      have hpos : PosScale xs.length (if p.noiseManagement ≠ .none then some (fixNM nm) else none) := by
        split_ifs with hne
        · cases hf : fixNM nm with
          | num q => exact hn3 q hf
          | per l => exact hn2 l hf
        · exact trivial
      have hfac : ∀ i (hi : i < xs.length),
          factorAt (if p.noiseManagement ≠ .none then some (fixNM nm) else none) i = nmFactor p xs[i] := by
        intro i hi
        by_cases hne : p.noiseManagement = .none
        · simp [hne, factorAt, nmFactor]
        · simp only [ne_eq, hne, not_false_eq_true, if_true, factorAt]; exact hn1 i hi
      generalize hg : (if p.noiseManagement ≠ .none then some (fixNM nm) else none) = nmU at hpos hfac
      have hresc : ∀ (k : Nat) (sc : Scale) (b : Bool) (out : List Vec),
          (∀ i (h : i < xs.length), sc.at i = 1 / (nmFactor p xs[i] * 2 ^ k)) →
          (isScaling sc = false → sc = .num 1) →
          computeAnalogMV p inSize w trans onv d k sc (isScaling sc) xs = .ok (b, out) →
          ∃ ys, rescale p sc (isScaling sc) out = .ok ys := by
        intro k sc b out h4 h5 h1
        have hl := (computeAnalogMV_shape h1).1
        exact ⟨_, rescale_spec p out (by
          intro i hi'
          have hi'' : i < xs.length := by omega
          rw [h4 i hi'']
          have := nmFactor_pos p xs[i]
          positivity) h5⟩
      by_cases hbm : p.boundManagement = .none
      · simp only [hbm, if_true]
        obtain ⟨sc, e1, e2, e3⟩ := mkScale_spec hpos none (by simp)
        have hat : ∀ i (h : i < xs.length), sc.at i = 1 / (nmFactor p xs[i] * 2 ^ 0) := by
          intro i hi'; rw [e2 i hi', hfac i hi']; simp
        have hc := computeAnalogMV_ideal hi inSize w trans d 0 sc e3 xs (hin' 0 sc hat)
        simp only [e1, hc]
        exact hresc 0 sc _ _ hat e3 hc
      · simp only [hbm, if_false]
        have hround : ∀ k, ∃ b out sc, bmRound p inSize w trans onv d nmU xs k = .ok (b, out, sc) ∧
            ∃ ys, rescale p sc (isScaling sc) out = .ok ys := by
          intro k
          obtain ⟨sc, e1, e2, e3⟩ := mkScale_spec hpos (some (2 ^ k)) (by rintro q ⟨⟩; positivity)
          have hat : ∀ i (h : i < xs.length), sc.at i = 1 / (nmFactor p xs[i] * 2 ^ k) := by
            intro i hi'; rw [e2 i hi', hfac i hi']; simp
          obtain ⟨b, out, hc⟩ : ∃ b out,
              computeAnalogMV p inSize w trans onv d k sc (isScaling sc) xs = .ok (b, out) :=
            ⟨_, _, computeAnalogMV_ideal hi inSize w trans d k sc e3 xs (hin' k sc hat)⟩
          refine ⟨b || bmLimitReached p (2 ^ k), out, sc, ?_, hresc k sc _ _ hat e3 hc⟩
          unfold bmRound
          simp only [e1, hc, bind, Except.bind, pure, Except.pure]
        obtain ⟨_, n, hn, hj, hl⟩ := C07_terminates p inSize w trans onv d nmU xs 0
        obtain ⟨b, out, sc, hr, ys, hy⟩ := hround n
        rcases hl with ⟨e, he⟩ | ⟨r, hr'⟩
        · rw [hr] at he; cases he
        · rw [hr] at hr'
          cases hr'
          rw [bmLoop_of _ 0 n (out, sc) hn (by simpa using hj) (by simpa using hr)]
          exact ⟨ys, hy⟩
  obtain ⟨ys, hys⟩ := hok
  rw [hys]
  congr 1
  rcases matmul_cases hperf hidl hys with
    ⟨nm, hnm, hsh, rfl⟩ | ⟨nm, hnm, hsh, k, b, out, sc, h1, h2, h3, h4, h5, h6⟩
  · -- the shortcut: all inputs are zero
    have hz : ∀ x ∈ xs, ∀ v ∈ x, v = 0 := by
      by_cases hm : p.noiseManagement = .max
      · exfalso
        obtain ⟨x, hx, hx0⟩ := hmax hm
        unfold computeNM at hnm
        simp only [hm] at hnm
        cases hl : xs.mapM vecMax with
        | error e => simp [hl, bind, Except.bind] at hnm
        | ok l =>
          simp only [hl, bind, Except.bind, pure, Except.pure, Except.ok.injEq] at hnm
          subst hnm
          have hf := mapM_ok_forall₂ hl
          simp only [isShortcut, Bool.and_eq_true, decide_eq_true_eq, List.all_map, List.all_eq_true,
            Function.comp_apply] at hsh
          obtain ⟨i, hi', rfl⟩ := List.getElem_of_mem hx
          have hi'' : i < l.length := by rw [← hf.length_eq]; exact hi'
          have := (List.forall₂_iff_get.1 hf).2 i hi' hi''
          simp only [List.get_eq_getElem] at this
          have h0 := hsh.2 l[i] (List.getElem_mem hi'')
          cases hxi : xs[i] with
          | nil => exact hne _ hx hxi
          | cons a t =>
            rw [hxi] at this hx0
            simp only [vecMax, Except.ok.injEq, foldl_max_eq] at this
            rw [← this] at h0
            simp only [List.tail_cons, List.headD_cons] at hx0
            unfold thres at h0
            split_ifs at h0 with ht
            · rcases min_choice (List.foldr max a t) p.nmThres with hc | hc
              · rw [hc] at h0; exact hx0 h0
              · rw [hc] at h0; linarith
            · exact hx0 h0
      · exact shortcut_absMax hnm hsh hm
    apply List.map_congr_left
    intro x hx
    have hlen : (if trans then inSize else w.length) = (effMat inSize w trans).length := by
      unfold effMat transpose; cases trans <;> simp
    rw [hlen]
    apply List.ext_getElem
    · simp [matVec]
    · intro i h1 h2
      simp only [List.getElem_replicate, List.getElem_map, matVec]
      rw [dot_zero _ _ (hz x hx)]; simp
  · have hc := computeAnalogMV_ideal hi inSize w trans d k sc h5 xs (hin' k sc h4)
    rw [hc] at h1
    simp only [Except.ok.injEq, Prod.mk.injEq] at h1
    obtain ⟨hb, hout'⟩ := h1
    -- nothing clips in the final round
    have hnc : ∀ i (h : i < xs.length), ∀ v ∈ matVec (effMat inSize w trans) xs[i],
        p.outBound ≤ 0 ∨ |v * sc.at i| ≤ p.outBound := by
      intro i hi' v hv
      by_cases hob : p.outBound ≤ 0
      · exact .inl hob
      rcases hout with h | hout
      · exact .inl h
      right
      have hb1 := hout _ (List.getElem_mem hi') v hv
      have h2' := nmFactor_pos p xs[i]
      have h4' : 0 < nmFactor p xs[i] * 2 ^ k := by positivity
      by_cases hbm : p.boundManagement = .none
      · rw [h2 hbm] at h4 h4'
        simp only [bmReach, hbm, if_true, mul_one] at hb1
        rw [h4 i hi', mul_one_div, abs_div, abs_of_pos h4', div_le_iff₀ h4']
        simpa using hb1
      · rcases (h3 hbm).2 with hbt | hlim
        · rw [hbt] at hb
          simp only [ne_eq, hbm, not_false_eq_true, if_true, List.all_eq_true] at hb
          have hm : (matVec (effMat inSize w trans) xs[i]).map (· * sc.at i)
              ∈ scaledOut (effMat inSize w trans) sc.at xs := by
            unfold scaledOut
            rw [List.mem_mapIdx]
            exact ⟨i, hi', rfl⟩
          have := notClipping_iff.1 (hb _ hm _ (List.mem_map_of_mem hv))
          rcases this with h | h
          · exact absurd h hob
          · exact h
        · simp only [bmLimitReached, Bool.or_eq_true, Bool.and_eq_true, decide_eq_true_eq,
            gt_iff_lt] at hlim
          have hr : bmInpRes p ≤ 0 := by
            unfold bmInpRes; rw [if_neg (not_lt.2 hi.inpRes)]; exact hi.inpRes
          have hmx : p.maxBmFactor < 2 ^ k := by
            rcases hlim with h | h
            · exact h
            · linarith [h.1]
          have hreach : bmReach p ≤ 2 ^ k := by
            simp only [bmReach, hbm, if_false]
            exact max_le (one_le_pow₀ (by norm_num)) hmx.le
          rw [h4 i hi', mul_one_div, abs_div, abs_of_pos h4', div_le_iff₀ h4']
          have : 0 < p.outBound * nmFactor p xs[i] := mul_pos (not_le.1 hob) h2'
          nlinarith
    have hl : out.length = xs.length := by rw [← hout']; simp [scaledOut]
    have hne0 : ∀ i, i < out.length → sc.at i ≠ 0 := by
      intro i hi'
      have hi'' : i < xs.length := by omega
      rw [h4 i hi'']
      have := nmFactor_pos p xs[i]
      positivity
    rw [rescale_spec p out hne0 h5, Except.ok.injEq] at h6
    rw [← h6, ← hout']
    apply List.ext_getElem
    · simp [scaledOut]
    · intro i hi1 hi2
      have hix : i < xs.length := by simpa using hi2
      have hs0 := hne0 i (by omega)
      simp only [List.getElem_mapIdx, List.getElem_map, scaledOut, List.map_map]
      apply List.map_congr_left
      intro v hv
      simp only [Function.comp_apply]
      rw [clampBound_id (hnc i hix v hv)]
      field_simp

/-- the hypotheses of `C08_noise_management_transparent` with clipping bounds active and bound
management needed (`W x = 43 > 12`). -/
example : IdealChain demoPars none ∧ demoPars.noiseManagement = .absMax ∧ 0 < demoPars.outBound ∧
    (∀ x ∈ ([[1, 1], [-1, 1/2]] : List Vec), ∀ v ∈ x, |v| ≤ demoPars.inpBound * nmFactor demoPars x) ∧
    (∀ x ∈ ([[1, 1], [-1, 1/2]] : List Vec), ∀ v ∈ matVec (effMat 2 [[1, 2], [3, 40]] false) x,
      |v| ≤ demoPars.outBound * nmFactor demoPars x * bmReach demoPars) := by
  refine ⟨⟨rfl, by decide +kernel, by decide +kernel, rfl, by decide +kernel, by decide +kernel, rfl, rfl⟩, rfl,
    by decide +kernel, by decide +kernel, by decide +kernel⟩

/-- **C08** (violated) With noise management `Max`, a batch whose samples all have maximum exactly 0
but contain negative values is answered with zeros, although `W x ≠ 0` (analog_mvm.py:82-88). -/
theorem C08_max_zero_counterexample :
    ∃ p : IOPars, IdealChain p none ∧ p.noiseManagement = .max ∧ p.inpBound ≤ 0 ∧ p.outBound ≤ 0 ∧
      matmul p 2 [[1, 1]] false none demoDraws [[-1, 0]] = .ok [[0]] ∧
      matVec [[1, 1]] [-1, 0] = [-1] := by
  refine ⟨{ demoPars with noiseManagement := .max, inpBound := 0, outBound := 0 },
    ⟨rfl, by decide +kernel, by decide +kernel, rfl, by decide +kernel, by decide +kernel, rfl, rfl⟩, rfl,
    by decide +kernel, by decide +kernel, by decide +kernel, by decide +kernel⟩

/-- **C08** (generalised violation) for *every* ideal configuration with `Max` noise management and every
batch of samples whose maximum is 0, the output is all zeros. -/
theorem C08_max_zero_always {p : IOPars} (hperf : p.isPerfect = false) (hid : p.mvType ≠ .ideal)
    (hnm : p.noiseManagement = .max) (hn : p.inpNoise ≤ 0) (inSize : Nat) (w : Mat) (trans : Bool)
    (onv : Option (Nat → ℚ)) (d : Draws) (xs : List Vec)
    (h0 : ∀ x ∈ xs, (∀ v ∈ x, v ≤ 0) ∧ (0 : ℚ) ∈ x) :
    matmul p inSize w trans onv d xs
      = .ok (xs.map fun _ => List.replicate (effMat inSize w trans).length 0) := by
  have hv : ∀ x ∈ xs, vecMax x = .ok 0 := by
    intro x hx
    obtain ⟨h1, h2⟩ := h0 x hx
    cases x with
    | nil => simp at h2
    | cons a t =>
      simp only [vecMax, foldl_max_eq]
      congr 1
      exact le_antisymm (h1 _ (foldr_max_mem t a)) (le_foldr_max h2)
  have hm := mapM_ok_map (f := vecMax) (g := fun _ => (0 : ℚ)) xs hv
  have hlen : (if trans then inSize else w.length) = (effMat inSize w trans).length := by
    unfold effMat transpose; cases trans <;> simp
  have hnmv : computeNM p xs = .ok (.per ((xs.map fun _ => (0 : ℚ)).map (thres p))) := by
    simp only [computeNM, hnm, hm, bind, Except.bind, pure, Except.pure]
  have hs : isShortcut p (.per ((xs.map fun _ => (0 : ℚ)).map (thres p))) = true := by
    simp only [isShortcut, hn, decide_true, Bool.true_and, List.all_eq_true, List.map_map,
      List.mem_map, decide_eq_true_eq]
    rintro s ⟨x, _, rfl⟩
    simp only [Function.comp_apply, thres]
    split_ifs with ht
    · exact min_eq_left ht.le
    · rfl
  unfold matmul
  simp only [hperf, hid, Bool.false_or, decide_false, Bool.false_eq_true, if_false, hnmv, bind,
    Except.bind, hs, if_true, pure, Except.pure, hlen]

/-! ## C09 -/

/-- **C09** A perfect forward (or MV type Ideal) is exactly the matrix product, whatever the other
parameters, noise draws and per-line noise values. -/
theorem C09_perfect_is_exact (p : IOPars) (h : p.isPerfect = true ∨ p.mvType = .ideal)
    (inSize : Nat) (w : Mat) (onv : Option (Nat → ℚ)) (d : Draws) (xs : List Vec) :
    matmul p inSize w false onv d xs = .ok (xs.map (matVec w)) ∧
    matmul p inSize w true onv d xs = .ok (xs.map fun x =>
      (List.range inSize).map fun j => dot (w.map fun r => r.getD j 0) x) := by
  have : (p.isPerfect || decide (p.mvType = .ideal)) = true := by
    rcases h with h | h <;> simp [h]
  constructor
  · simp [matmul, this, baseMatmul]
  · simp [matmul, this, baseMatmul, transpose, matVec, List.map_map, Function.comp_def]

example : ({ isPerfect := true } : IOPars).isPerfect = true := rfl

/-- The configurations documented as supported by the torch tile. -/
structure Supported (p : IOPars) : Prop where
  mv : p.mvType = .onePass
  bm : p.boundManagement ≠ .shift
  nm1 : p.noiseManagement ≠ .averageAbsMax
  nm2 : p.noiseManagement ≠ .absMaxNPSum
  wNoise : p.wNoise ≤ 0
  wNoiseType : p.wNoiseTypeSet = false
  irDrop : p.irDrop ≤ 0
  outNl : p.outNonlinearity ≤ 0
  slope : p.slopeCalibration ≤ 0
  vOff : p.vOffsetStd ≤ 0
  vOffMin : p.vOffsetWMin ≤ 0
  rSeries : p.rSeries ≤ 0
  wAsym : p.wReadAsymmetryDtod ≤ 0

/-- **C09** The support check accepts exactly the supported configurations and raises `ConfigError`
on all others. -/
theorem C09_check_support (p : IOPars) :
    (checkSupport p = .ok () ↔ Supported p) ∧
    (checkSupport p ≠ .ok () → checkSupport p = .error .configError) := by
  have key : (Supported p → checkSupport p = .ok ()) ∧
      (¬ Supported p → checkSupport p = .error .configError) := by
    constructor
    · rintro ⟨h1, h2, h3, h4, h5, h6, h7, h8, h9, h10, h11, h12, h13⟩
      simp [checkSupport, h1, h2, h3, h4, h6, not_lt.2 h5, not_lt.2 h7, not_lt.2 h8, not_lt.2 h9,
        not_lt.2 h10, not_lt.2 h11, not_lt.2 h12, not_lt.2 h13, pure, Except.pure]
    · intro hn
      by_contra hc
      apply hn
      simp only [checkSupport, bind, Except.bind, pure, Except.pure, throw, throwThe,
        MonadExceptOf.throw] at hc
      split_ifs at hc with g1 g2 g3 g4 g5 g6 g7 g8 g9 <;> first | exact absurd rfl hc | skip
      simp only [not_or, gt_iff_lt, not_lt, Bool.not_eq_true, ne_eq, not_not] at g1 g2 g3 g4 g5 g6 g7 g8 g9
      exact ⟨g1, g2, g3.1, g3.2, g4.1, g4.2, g5, g6, g7, g8.1, g8.2.1, g8.2.2, g9⟩
  refine ⟨⟨fun h => ?_, key.1⟩, fun h => ?_⟩
  · by_contra hn; rw [key.2 hn] at h; cases h
  · exact key.2 fun hs => h (key.1 hs)

example : Supported {} := ⟨rfl, by decide, by decide, by decide, by decide +kernel, rfl, by decide +kernel,
  by decide +kernel, by decide +kernel, by decide +kernel, by decide +kernel, by decide +kernel, by decide +kernel⟩

/-- **C09** (finding) MV type `Ideal`, which `matmul` treats like `is_perfect`, is rejected by the
support check the torch tile runs in its constructor — even if `is_perfect` is set. -/
theorem C09_ideal_type_rejected (p : IOPars) (h : p.mvType = .ideal) :
    checkSupport p = .error .configError := by
  apply (C09_check_support p).2
  rw [ne_eq, (C09_check_support p).1]
  intro hs
  rw [hs.mv] at h; cases h

end Aihw.Mvm
