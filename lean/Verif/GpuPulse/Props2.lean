import Verif.GpuPulse.Props

/-!
# C35 on the GPU: trains, lengths beyond the desired one, samples without an update, implicit pulses
-/
namespace Aihw.GpuPulse

open Aihw.Pulsed

theorem discretized_zero (res : ℝ) (sto : Bool) {u : ℝ} (h0 : 0 ≤ u) (h1 : u ≤ 1) : discretized res sto 0 u = 0 := by
  have hr : rint (0 : ℝ) = 0 := by simp [rint]
  have h : rint (u - 1 / 2) = 0 := by
    by_cases hu : u < 1 / 2
    · have hf : ⌊u - 1 / 2⌋ = -1 := by rw [Int.floor_eq_iff]; push_cast; constructor <;> linarith
      unfold rint
      rw [hf]
      push_cast
      by_cases h2 : u = 0
      · subst h2; norm_num
      · have : 0 < u := lt_of_le_of_ne h0 (Ne.symm h2)
        rw [if_neg (by linarith), if_pos (by linarith)]; try norm_num
    · have hf : ⌊u - 1 / 2⌋ = 0 := by rw [Int.floor_eq_iff]; push_cast; constructor <;> linarith
      unfold rint
      rw [hf]
      push_cast
      by_cases h2 : u - 1 / 2 < 1 / 2
      · rw [if_pos (by linarith)]
      · rw [if_neg (by linarith), if_neg (by linarith)]; try norm_num
  unfold discretized
  split_ifs
  · rfl
  · rw [zero_div, zero_add, h]; simp
  · rw [zero_div, hr]; simp

/-- **C35 (GPU: trains).** If the GPU uses the factor `P` and the number of slots `bl` for sample `b`, then with the same
draws (between 0 and 1) the entries of this sample that pulse in a slot, with their signs, are those of the CPU's train for `P`; there are no
pulses from slot `bl` on. -/
theorem C35_gpu_trains (v : Input) (m b : ℕ) (hb : b < m) (slots : ℕ → ℤ) (factor : ℕ → ℝ) (res : ℝ) (sto : Bool)
    (q : ℕ → ℝ) (hq : ∀ i, 0 ≤ q i ∧ q i ≤ 1) (r : ℕ → ℕ → ℝ) (k : ℕ) :
    ((List.range v.size).filterMap fun j =>
        if hit v m slots factor res sto q r k (v.pos m b j) then
          some (if v.sample m b j < 0 then -((j : ℤ) + 1) else (j : ℤ) + 1) else none) =
      if (k : ℤ) < slots b then
        indices v.size (factor b) res sto (v.sample m b)
          ⟨fun j => q (v.pos m b j), fun k j => r k (v.pos m b j)⟩ k
      else [] := by
  by_cases hk : (k : ℤ) < slots b
  · rw [if_pos hk, indices]
    refine List.filterMap_congr ?_
    intro j hj
    have hj' := List.mem_range.1 hj
    have e : probAt v m factor res sto q (v.pos m b j) = prob (factor b) res sto (v.sample m b)
        ⟨fun j => q (v.pos m b j), fun k j => r k (v.pos m b j)⟩ j := by
      rw [probAt, batchIdx_pos v hb hj']; rfl
    by_cases h0 : v.sample m b j = 0
    · have e0 : prob (factor b) res sto (v.sample m b)
          ⟨fun j => q (v.pos m b j), fun k j => r k (v.pos m b j)⟩ j = 0 := by
        rw [prob, h0, abs_zero, zero_mul]; exact discretized_zero res sto (hq _).1 (hq _).2
      rw [if_pos e0, hit, e, e0]
      simp
    · rw [hit, batchIdx_pos v hb hj', e]
      have h0' : v.data (v.pos m b j) ≠ 0 := h0
      rw [decide_eq_true hk, decide_eq_false h0']
      have es : (if v.sample m b j < 0 then -((j : ℤ) + 1) else (j : ℤ) + 1) = signedIdx (v.sample m b j) j := by
        rw [signedIdx]
        rcases lt_or_gt_of_ne h0 with h | h
        · rw [if_pos h, if_neg (not_lt.2 h.le)]
        · rw [if_neg (not_lt.2 h.le), if_pos h]
      rw [es]
      by_cases hp : prob (factor b) res sto (v.sample m b)
          ⟨fun j => q (v.pos m b j), fun k j => r k (v.pos m b j)⟩ j = 0
      · rw [if_pos hp, decide_eq_true hp]; simp
      · rw [if_neg hp, decide_eq_false hp]; simp
  · rw [if_neg hk]
    rw [List.filterMap_eq_nil_iff]
    intro j hj
    have hj' := List.mem_range.1 hj
    rw [hit, batchIdx_pos v hb hj', decide_eq_false hk]
    simp

/-- The slots, and the scale, of sample `b` for a length `bl`. -/
noncomputable def kOf (v : UpPar) (bl : ℤ) (lr g : ℝ) (m : ℕ) (x d : Input) (b : ℕ) : ℤ :=
  if v.ublm then umK v bl lr g (x.amax m b) (d.amax m b) else bl

@[inherit_doc kOf]
noncomputable def sOf (v : UpPar) (bl : ℤ) (lr g : ℝ) (m : ℕ) (x d : Input) (b : ℕ) : ℝ :=
  if v.um then umScale v bl lr g (x.amax m b) (d.amax m b) else 1

theorem prepare_ok {v : UpPar} {bl : ℤ} {t lr g : ℝ} (h : v.calculateBlAB lr g = .ok ⟨bl, t, t⟩) (m : ℕ) (x d : Input) :
    prepare v lr g m x d = .ok ⟨fun b => kOf v bl lr g m x d b,
      fun b => scaleProb v t (kOf v bl lr g m x d b) lr g * sOf v bl lr g m x d b,
      fun b => scaleProb v t (kOf v bl lr g m x d b) lr g / sOf v bl lr g m x d b⟩ := by
  rw [prepare, h]; rfl

/-- **C35 (GPU: length and product).** For every update configuration with `desired_bl ≥ 1`, positive granularity,
positive `um_grad_scale` and positive learning rate, and every sample of a batch: there is at least one slot; with managed
length at most `desired_bl` slots; otherwise the number of slots is the same for all samples. For a sample whose vectors are
not entirely zero the product of the two factors, the number of slots and the granularity is the learning rate, or for a
length that exceeds the desired one at least the learning rate and less than a granularity more. -/
theorem C35_gpu_product (u : UpPar) (m : ℕ) (x d : Input) (lr g : ℝ) (hD : 1 ≤ u.desiredBL) (hg : 0 < g)
    (hs : 0 < u.umGradScale) (hlr : 0 < lr) :
    ∃ p, prepare u.initialize lr g m x d = .ok p ∧
      (∀ b, 1 ≤ p.slots b ∧ (u.ublm = true → p.slots b ≤ u.desiredBL)) ∧
      (u.ublm = false → ∀ b b', p.slots b = p.slots b') ∧
      ∀ b, (∃ j < x.size, x.sample m b j ≠ 0) → (∃ i < d.size, d.sample m b i ≠ 0) →
        0 < p.xFactor b ∧ 0 < p.dFactor b ∧
        (u.fixedBL = true ∨ u.ublm = true ∨ lr ≤ g * u.desiredBL →
          p.dFactor b * p.xFactor b * p.slots b * g = lr) ∧
        (u.fixedBL = false → u.ublm = false → g * u.desiredBL < lr →
          p.slots b = ⌈lr / g⌉ ∧ lr ≤ p.dFactor b * p.xFactor b * p.slots b * g ∧
            p.dFactor b * p.xFactor b * p.slots b * g < lr + g) := by
  obtain ⟨v, hv⟩ : ∃ v, v = u.initialize := ⟨_, rfl⟩
  have v2 : v.fixedBL = u.fixedBL := by rw [hv]; rfl
  have v3 : v.ublm = u.ublm := by rw [hv]; rfl
  have v4 : v.umGradScale = u.umGradScale := by rw [hv]; rfl
  have v5 : v.um = (u.um || u.ublm) := by rw [hv]; rfl
  have v1 : v.desiredBL = u.desiredBL := by rw [hv]; rfl
  have hD0 : (0 : ℝ) < u.desiredBL := by exact_mod_cast hD
  rw [← hv]
  have hceil : lr ≤ (⌈lr / g⌉ : ℝ) * g ∧ (⌈lr / g⌉ : ℝ) * g < lr + g := by
    constructor
    · rw [← div_le_iff₀ hg]; exact Int.le_ceil _
    · have := Int.ceil_lt_add_one (lr / g)
      calc _ < (lr / g + 1) * g := mul_lt_mul_of_pos_right this hg
        _ = lr + g := by field_simp
  have hsq : ∀ c : ℝ, 0 < c → 0 < √(lr / (g * c)) ∧ √(lr / (g * c)) * √(lr / (g * c)) * c * g = lr := by
    intro c hc
    have : 0 < lr / (g * c) := by positivity
    refine ⟨Real.sqrt_pos.2 this, ?_⟩
    rw [Real.mul_self_sqrt this.le]; field_simp
  -- the scale is positive
  have hsc : ∀ (bl : ℤ) (xm dm : ℝ), 0 < bl → 0 < xm → 0 < dm → 0 < umScale v bl lr g xm dm := by
    intro bl xm dm hbl hx hd
    have hbl' : (0 : ℝ) < bl := by exact_mod_cast hbl
    have hs' := v4 ▸ hs
    have hk : 0 < kVal v lr g xm dm := by rw [kVal]; have := abs_pos.2 hlr.ne'; positivity
    rw [umScale]
    rw [if_pos hk]
    refine Real.sqrt_pos.2 ?_
    split_ifs <;> positivity
  have hprod : ∀ t s : ℝ, 0 < s → (t * s) * (t / s) = t * t := by intro t s h; field_simp
  rcases calc_cases v (g := g) hlr with ⟨hc, hr⟩ | ⟨hc, h1, h2, h3⟩
  · -- exact regime
    refine ⟨_, prepare_ok hc m x d, ?_⟩
    rw [v1] at *
    rw [v2, v3] at hr
    have hD' : (1 : ℤ) ≤ u.desiredBL := by exact_mod_cast hD
    have hslot : ∀ b, 1 ≤ kOf v u.desiredBL lr g m x d b ∧ kOf v u.desiredBL lr g m x d b ≤ u.desiredBL := by
      intro b
      rw [kOf]
      split_ifs
      · rw [umK]
        split_ifs with hk hk2
        · exact ⟨Int.one_le_ceil_iff.2 hk, hk2⟩
        · exact ⟨hD', le_rfl⟩
        · exact ⟨le_rfl, hD'⟩
      · exact ⟨hD', le_rfl⟩
    refine ⟨fun b => ⟨(hslot b).1, fun _ => (hslot b).2⟩, ?_, ?_⟩
    · intro h b b'
      rw [← v3] at h
      simp [kOf, h]
    · rintro b ⟨j, hj, hxj⟩ ⟨i, hi, hdi⟩
      have hX : 0 < x.amax m b := by rw [amax_eq]; exact absMax_pos hj hxj
      have hDm : 0 < d.amax m b := by rw [amax_eq]; exact absMax_pos hi hdi
      have hsb := hslot b
      have hss : 0 < sOf v u.desiredBL lr g m x d b := by
        rw [sOf]
        split_ifs
        · exact hsc _ _ _ (by exact_mod_cast hD) hX hDm
        · exact one_pos
      have hkk : v.ublm = false → kOf v u.desiredBL lr g m x d b = u.desiredBL := by intro h; simp [kOf, h]
      have hp : 0 < scaleProb v √(lr / (g * u.desiredBL)) (kOf v u.desiredBL lr g m x d b) lr g ∧
          scaleProb v √(lr / (g * u.desiredBL)) (kOf v u.desiredBL lr g m x d b) lr g *
            scaleProb v √(lr / (g * u.desiredBL)) (kOf v u.desiredBL lr g m x d b) lr g *
            kOf v u.desiredBL lr g m x d b * g = lr := by
        have hk0 : (0 : ℝ) < kOf v u.desiredBL lr g m x d b := by exact_mod_cast hsb.1
        rw [scaleProb]
        cases hu : v.ublm
        · have := hsq u.desiredBL hD0
          rw [hkk hu]
          simpa using this
        · rw [if_pos rfl, div_div]; exact hsq _ hk0
      refine ⟨div_pos hp.1 hss, mul_pos hp.1 hss, ?_, ?_⟩
      · intro _
        dsimp only
        rw [hprod _ _ hss]; exact hp.2
      · intro h1 h2 h3
        rcases hr with h | h | h
        · rw [h1] at h; simp at h
        · rw [h2] at h; simp at h
        · linarith
  · refine ⟨_, prepare_ok hc m x d, ?_⟩
    rw [v1] at h3
    have hpos : 0 < lr / g := by positivity
    have h1' : 1 ≤ ⌈lr / g⌉ := Int.one_le_ceil_iff.2 hpos
    have hmax : max ⌈lr / g⌉ 1 = ⌈lr / g⌉ := max_eq_left h1'
    have hkk : ∀ b, kOf v (max ⌈lr / g⌉ 1) lr g m x d b = ⌈lr / g⌉ := by intro b; simp [kOf, h2, hmax]
    have hp : ∀ k, scaleProb v 1 k lr g = 1 := by intro k; simp [scaleProb, h2]
    simp only [hkk, hp]
    refine ⟨?_, ?_, ?_⟩
    · intro b
      exact ⟨h1', fun h => by rw [← v3, h2] at h; simp at h⟩
    · intros; trivial
    · rintro b ⟨j, hj, hxj⟩ ⟨i, hi, hdi⟩
      have hX : 0 < x.amax m b := by rw [amax_eq]; exact absMax_pos hj hxj
      have hDm : 0 < d.amax m b := by rw [amax_eq]; exact absMax_pos hi hdi
      have hss : 0 < sOf v (max ⌈lr / g⌉ 1) lr g m x d b := by
        rw [sOf]
        split_ifs
        · exact hsc _ _ _ (by rw [hmax]; exact h1') hX hDm
        · exact one_pos
      refine ⟨div_pos one_pos hss, mul_pos one_pos hss, ?_, ?_⟩
      · intro h
        rw [v2] at h1; rw [v3] at h2
        rcases h with h | h | h
        · rw [h1] at h; simp at h
        · rw [h2] at h; simp at h
        · linarith
      · intro _ _ _
        rw [hprod _ _ hss, one_mul, one_mul]
        exact ⟨by trivial, hceil⟩

/-- **C35 (GPU: trains longer than desired).** With update management, without a fixed or managed length, and a learning
rate above `g * desired_bl`, CPU and GPU use trains of the same length `⌈lr / g⌉`, but not the same scales. For a sample with
largest magnitudes `X` and `D`, `X * D ≤ 1`: on the GPU the largest probabilities of both trains are `√(X * D)`, so none is
cut off. The CPU compares with `desired_bl` instead of the length: if `lr * X * D > g * desired_bl`, its largest probability
for `x` is `√(g * desired_bl / lr)` and for `d` is `X * D * √(lr / (g * desired_bl))`, which may exceed one; then pulses
are missing. -/
theorem C35_gpu_long (u : UpPar) (m : ℕ) (x d : Input) (lr g : ℝ) (hD : 1 ≤ u.desiredBL) (hg : 0 < g)
    (hlr : 0 < lr) (h1 : u.fixedBL = false) (h2 : u.ublm = false) (h3 : u.um = true) (h4 : u.umGradScale = 1)
    (h5 : g * u.desiredBL < lr) :
    ∃ p, prepare u.initialize lr g m x d = .ok p ∧
      ∀ b X D, (∃ j < x.size, |x.sample m b j| = X) → (∀ j < x.size, |x.sample m b j| ≤ X) →
        (∃ i < d.size, |d.sample m b i| = D) → (∀ i < d.size, |d.sample m b i| ≤ D) → 0 < X → 0 < D → X * D ≤ 1 →
        (p.slots b = ⌈lr / g⌉ ∧ X * p.xFactor b = √(X * D) ∧ D * p.dFactor b = √(X * D)) ∧
        (g * u.desiredBL < lr * X * D →
          ∃ r, u.initialize.scales x.size d.size (x.sample m b) (d.sample m b) lr g = .ok r ∧ r.bl = ⌈lr / g⌉ ∧
            X * r.b = √(g * u.desiredBL / lr) ∧ D * r.a = X * D * √(lr / (g * u.desiredBL))) := by
  obtain ⟨v, hv⟩ : ∃ v, v = u.initialize := ⟨_, rfl⟩
  have v1 : v.desiredBL = u.desiredBL := by rw [hv]; rfl
  have v2 : v.fixedBL = false := by rw [hv, ← h1]; rfl
  have v3 : v.ublm = false := by rw [hv, ← h2]; rfl
  have v4 : v.umGradScale = 1 := by rw [hv, ← h4]; rfl
  have v5 : v.um = true := by rw [hv]; simp [UpPar.initialize, h3]
  have hD0 : (0 : ℝ) < u.desiredBL := by exact_mod_cast hD
  rw [← hv]
  have hc : v.calculateBlAB lr g = .ok ⟨max ⌈lr / g⌉ 1, 1, 1⟩ := by
    rcases calc_cases v (g := g) hlr with ⟨_, h | h | h⟩ | ⟨h, _⟩
    · rw [v2] at h; simp at h
    · rw [v3] at h; simp at h
    · rw [v1] at h; linarith
    · exact h
  have hpos : 0 < lr / g := by positivity
  have h1' : 1 ≤ ⌈lr / g⌉ := Int.one_le_ceil_iff.2 hpos
  have hmax : max ⌈lr / g⌉ 1 = ⌈lr / g⌉ := max_eq_left h1'
  rw [hmax] at hc
  refine ⟨_, prepare_ok hc m x d, ?_⟩
  rintro b X D ⟨j, hj, hX⟩ hX' ⟨i, hi, hDD⟩ hD' hX0 hD0' hXD
  have habs : ∀ (n : ℕ) (f : ℕ → ℝ) (M : ℝ) (k : ℕ), k < n → |f k| = M → (∀ k < n, |f k| ≤ M) → Pulsed.absMax n f = M := by
    intro n f M k hk hM hall
    refine le_antisymm ?_ (hM ▸ le_absMax f hk)
    rcases (absMax_foldl f (List.range n) 0).2.2 with h' | ⟨l, hl, h'⟩
    · rw [Pulsed.absMax, h', ← hM]; exact abs_nonneg _
    · rw [Pulsed.absMax, h']; exact hall l (List.mem_range.1 hl)
  have eX := habs _ _ _ j hj hX hX'
  have eD := habs _ _ _ i hi hDD hD'
  have aX : x.amax m b = X := by rw [amax_eq, eX]
  have aD : d.amax m b = D := by rw [amax_eq, eD]
  have hXD0 : 0 < X * D := mul_pos hX0 hD0'
  constructor
  · have hk : kVal v lr g X D = lr * (X * D) / g := by rw [kVal, v4, abs_of_pos hlr]; ring
    have hk0 : 0 < kVal v lr g X D := by rw [hk]; positivity
    have hle : ¬ ((⌈lr / g⌉ : ℤ) : ℝ) < kVal v lr g X D := by
      rw [hk, not_lt]
      calc lr * (X * D) / g ≤ lr * 1 / g := by gcongr
        _ = lr / g := by ring
        _ ≤ _ := Int.le_ceil _
    have es : sOf v ⌈lr / g⌉ lr g m x d b = √(X / D) := by
      rw [sOf, v5, if_pos rfl, aX, aD, umScale]
      rw [if_pos hk0, if_neg hle, v4, mul_one]
    have ep : ∀ k, scaleProb v 1 k lr g = 1 := by intro k; simp [scaleProb, v3]
    refine ⟨by simp [kOf, v3], ?_, ?_⟩
    · dsimp only
      rw [es, ep, div_sqrt, one_mul, Real.sqrt_div' _ hX0.le, Real.sqrt_mul hX0.le]
      have := Real.mul_self_sqrt hX0.le
      have h0 : √X ≠ 0 := (Real.sqrt_pos.2 hX0).ne'
      field_simp
      nlinarith
    · dsimp only
      rw [es, ep, one_mul, Real.sqrt_div' _ hD0'.le, Real.sqrt_mul hX0.le]
      have := Real.mul_self_sqrt hD0'.le
      have h0 : √D ≠ 0 := (Real.sqrt_pos.2 hD0').ne'
      field_simp
      nlinarith
  · intro hcut
    have hkc : (v.desiredBL : ℝ) < lr * X * (1 * D) / g := by
      rw [v1, lt_div_iff₀ hg]; linarith [mul_comm g (u.desiredBL : ℝ)]
    refine ⟨v.umStep ⟨⌈lr / g⌉, 1, 1⟩ v.desiredBL (lr * X * (1 * D) / g) X (1 * D), ?_, ?_, ?_, ?_⟩
    · rw [UpPar.scales, v5, Bool.or_true, if_pos rfl, UpPar.performUM, hc, eX, eD]
      show (if 0 < lr then _ else _) = _
      rw [if_pos hlr]
      show (if _ then _ else _) = _
      rw [if_neg (by push Not; exact ⟨hD0'.ne', hX0.ne'⟩)]
      show (if _ then _ else _) = _
      rw [v5, Bool.or_true, if_pos rfl]
      dsimp only
      rw [UpPar.ublmStep, v3, v4]
      rfl
    · simp [UpPar.umStep, v5]
    · simp only [UpPar.umStep, v5, if_true, one_mul]
      rw [one_mul] at hkc
      rw [if_pos (by exact_mod_cast hkc), v1]
      push_cast
      have e : D * ((u.desiredBL : ℝ) / (lr * X * D / g)) / X = (g * u.desiredBL / lr) / (X ^ 2) := by field_simp
      rw [e, Real.sqrt_div' _ (by positivity), Real.sqrt_sq hX0.le]
      field_simp
    · simp only [UpPar.umStep, v5, if_true, one_mul]
      rw [one_mul] at hkc
      rw [if_pos (by exact_mod_cast hkc), v1]
      push_cast
      have e : X / (D * ((u.desiredBL : ℝ) / (lr * X * D / g))) = (lr / (g * u.desiredBL)) * (X ^ 2) := by field_simp
      rw [e, Real.sqrt_mul' _ (by positivity), Real.sqrt_sq hX0.le]
      ring

/-- **C35 (GPU: samples without an update).** For every learning rate of at least zero and every sample whose `x` or whose
`d` is entirely zero, or if the learning rate is zero: in every pair of entries of this sample one does not pulse, in any
slot and for any draws between 0 and 1. -/
theorem C35_gpu_nothing (u : UpPar) (m : ℕ) (x d : Input) (lr g : ℝ) (hlr : 0 ≤ lr) (b : ℕ) (hb : b < m)
    (h : lr = 0 ∨ (∀ j < x.size, x.sample m b j = 0) ∨ (∀ i < d.size, d.sample m b i = 0)) :
    ∃ p, prepare u.initialize lr g m x d = .ok p ∧
      ∀ (res : ℝ) (sto : Bool) (qx qd : ℕ → ℝ) (rx rd : ℕ → ℕ → ℝ), (∀ i, 0 ≤ qx i ∧ qx i ≤ 1) →
        (∀ i, 0 ≤ qd i ∧ qd i ≤ 1) → ∀ k, ∀ j < x.size, ∀ i < d.size,
          hit x m p.slots p.xFactor res sto qx rx k (x.pos m b j) = false ∨
            hit d m p.slots p.dFactor res sto qd rd k (d.pos m b i) = false := by
  obtain ⟨p, hp, hz⟩ : ∃ p, prepare u.initialize lr g m x d = .ok p ∧ (lr = 0 → p.xFactor b = 0) := by
    by_cases h0 : lr = 0
    · have hc : u.initialize.calculateBlAB lr g = .ok ⟨0, 0, 0⟩ := by
        rw [UpPar.calculateBlAB, h0, if_neg (lt_irrefl _), if_pos rfl]
      refine ⟨_, prepare_ok hc m x d, ?_⟩
      intro _
      simp [scaleProb, h0]
    · have hpos := lt_of_le_of_ne hlr (Ne.symm h0)
      rcases calc_cases u.initialize (g := g) hpos with ⟨hc, _⟩ | ⟨hc, _⟩ <;>
        exact ⟨_, prepare_ok hc m x d, fun h => absurd h h0⟩
  refine ⟨p, hp, ?_⟩
  intro res sto qx qd rx rd hqx hqd k j hj i hi
  have hzero : ∀ (v : Input) (f : ℕ → ℝ) (q : ℕ → ℝ) (r : ℕ → ℕ → ℝ) (l : ℕ), v.data (v.pos m b l) = 0 →
      hit v m p.slots f res sto q r k (v.pos m b l) = false := by
    intro v f q r l hl; rw [hit, decide_eq_true hl]; simp
  rcases h with h | h | h
  · left
    rw [hit, probAt, batchIdx_pos x hb hj, hz h, mul_zero, discretized_zero res sto (hqx _).1 (hqx _).2]
    simp
  · exact Or.inl (hzero _ _ _ _ _ (h j hj))
  · exact Or.inr (hzero _ _ _ _ _ (h i hi))

end Aihw.GpuPulse
