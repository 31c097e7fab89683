import Mathlib.Data.List.GetD
import Verif.Inference.Noise
import Verif.Inference.ConverterCustom

/-!
# Statistical noise models: property C24
-/
namespace Aihw.Inference

/-- Specification: the polynomial `Σ cᵢ xⁱ` of the documentation. -/
noncomputable def polyVal (cs : List ℝ) (x : ℝ) : ℝ := (cs.mapIdx fun i c => c * x ^ i).sum

theorem sigLoop_eq (x mat sig : ℝ) (cs : List ℝ) :
    sigLoop x mat sig cs = sig + mat * (cs.mapIdx fun i c => c * x ^ (i + 1)).sum := by
  induction cs generalizing mat sig with
  | nil => simp [sigLoop]
  | cons c cs ih =>
    have e : (cs.mapIdx fun i d => d * x ^ (i + 1 + 1)) = (cs.mapIdx fun i d => d * x ^ (i + 1)).map (· * x) := by
      apply List.ext_getElem (by simp)
      intro i h1 h2
      simp only [List.getElem_mapIdx, List.getElem_map]; ring
    simp only [sigLoop, ih, List.mapIdx_cons, List.sum_cons, e, List.sum_map_mul_right]
    simp only [List.map_id']
    ring

theorem sigLoop_poly (x c0 : ℝ) (cs : List ℝ) : sigLoop x 1 c0 cs = polyVal (c0 :: cs) x := by
  rw [sigLoop_eq, polyVal, List.mapIdx_cons, List.sum_cons]
  simp

/-- **C24** (programming noise). Whenever programming does not raise, for every target conductance and every Gaussian number
the programmed conductance is the documented one (target plus polynomial noise in units of the reference), cut at 0; in
particular it is never negative. -/
theorem C24_programming (p : Pars) (f : ℝ → ℝ → ℝ) (h : progNoise p = .ok f) :
    ∃ r, p.ref = some r ∧ r ≠ 0 ∧ ∀ g ξ,
      f g ξ = max 0 (g + p.progScale * (p.gMax / r) * polyVal p.coeff (g / p.gMax) * ξ) ∧ 0 ≤ f g ξ := by
  unfold progNoise at h
  cases hc : p.coeff with
  | nil => rw [hc] at h; cases h
  | cons c0 cs =>
    rw [hc] at h
    cases hr : p.ref with
    | none => rw [hr] at h; cases h
    | some r =>
      rw [hr] at h
      by_cases h0 : r = 0
      · simp [h0] at h
      · simp only [h0, if_false, Except.ok.injEq] at h
        subst h
        refine ⟨r, rfl, h0, fun g ξ => ⟨?_, le_max_right _ _⟩⟩
        dsimp only
        rw [sigLoop_poly, max_comm]
        congr 1
        ring

/-- **C24** (reference conductance). For a positive `g_max`: default coefficients are rescaled to their published reference,
explicit coefficients to `g_max`; giving both `prog_coeff` and `prog_coeff_g_max_reference` makes every programming call raise
`AttributeError` (PCM and Hermes models). -/
theorem C24_reference (k : Kind) (hk : k ≠ .stateIndependent) (gMax : ℝ) (a b c d e : ℝ) (ra : Option ℝ) (cs : List ℝ)
    (hcs : cs ≠ []) :
    (mkPars k gMax none ra a b c d e).ref = some (defaults k).2 ∧
    (mkPars k gMax none ra a b c d e).coeff = (defaults k).1 ∧
    (mkPars k gMax (some cs) none a b c d e).ref = some gMax ∧
    ∀ r, progNoise (mkPars k gMax (some cs) (some r) a b c d e) = .error .attributeError := by
  refine ⟨by simp [mkPars, initRef, hk], by simp [mkPars, initRef], by simp [mkPars, initRef], fun r => ?_⟩
  unfold progNoise
  cases cs with
  | nil => exact absurd rfl hcs
  | cons x xs => simp [mkPars, initRef, hk]

theorem logClamp_pos {a b lo hi x : ℝ} (h : lo ≤ hi) : lo ≤ logClamp a b lo hi x := by
  unfold logClamp
  split_ifs
  · exact h
  · exact le_min (le_max_right _ _) h

/-- **C24** (drift coefficients). For a non-negative drift scale the coefficients are non-negative for every conductance
and Gaussian number. -/
theorem C24_nu_nonneg (p : Pars) (h : 0 ≤ p.driftScale) (g ξ : ℝ) : 0 ≤ nuCoeff p g ξ := by
  unfold nuCoeff
  exact mul_nonneg (le_max_right _ _) h

/-- **C24** (state-independent drift coefficients are reflected, not rectified). Where the documented `|·|₊` would give 0 the
code gives the absolute value. -/
theorem C24_nu_reflected (p : Pars) (hk : p.kind = .stateIndependent) (g ξ : ℝ) (h : p.nuMean + p.nuStd * ξ ≤ 0) :
    nuCoeff p g ξ = -(p.nuMean + p.nuStd * ξ) * p.driftScale := by
  unfold nuCoeff muDrift sigDrift
  simp only [hk]
  rw [abs_of_nonpos h, max_eq_left (by linarith)]

/-- The drift function exists for all non-negative times if the read time is positive and at most `t_0`. -/
theorem driftNoise_ok (p : Pars) (hr : 0 < p.tRead) (h0 : p.tRead ≤ p.t0) (t : ℝ) (ht : 0 ≤ t) :
    driftNoise p t = .ok fun g ν ξ => max (driftPart p (t + p.t0) g ν + readAmp p g (driftPart p (t + p.t0) g ν) *
      p.readScale * Real.sqrt (Real.log ((t + p.t0 + p.tRead) / (2 * p.tRead))) * ξ) 0 := by
  unfold driftNoise
  have h1 : t + p.t0 > 0 := by linarith
  have h2 : ¬ (t + p.t0 + p.tRead) / (2 * p.tRead) < 1 := by
    rw [not_lt, le_div_iff₀ (by positivity)]; linarith
  simp only [h1, if_true, h2, if_false]

/-- **C24** (drift is non-negative). Whatever time, conductance, coefficient and Gaussian number, a drifted conductance is
never negative. -/
theorem C24_drift_nonneg (p : Pars) (t : ℝ) (f : ℝ → ℝ → ℝ → ℝ) (h : driftNoise p t = .ok f) (g ν ξ : ℝ) :
    0 ≤ f g ν ξ := by
  unfold driftNoise at h
  by_cases h1 : t + p.t0 > 0
  · by_cases h2 : (t + p.t0 + p.tRead) / (2 * p.tRead) < 1
    · simp [h1, h2] at h
    · simp only [h1, if_true, h2, if_false, Except.ok.injEq] at h
      subst h
      exact le_max_right _ _
  · simp only [h1, if_false, Except.ok.injEq] at h
    subst h
    exact le_max_right _ _

/-- **C24** (power-law drift). Without read noise, for a non-negative conductance and coefficient: at time 0 the conductance
is unchanged, at any time it is `g (1 + t/t₀)^(-ν)`, it never increases with time, never exceeds the programmed conductance and
stays positive if it was. -/
theorem C24_drift_power_law (p : Pars) (hrs : p.readScale = 0) (hr : 0 < p.tRead) (h0 : p.tRead ≤ p.t0) :
    (∀ t, 0 ≤ t → ∃ f, driftNoise p t = .ok f ∧ ∀ g ν ξ, 0 ≤ g → 0 ≤ ν →
      f g ν ξ = g * (1 + t / p.t0) ^ (-ν) ∧ f g ν ξ ≤ g ∧ (0 < g → 0 < f g ν ξ)) ∧
    (∃ f, driftNoise p 0 = .ok f ∧ ∀ g ν ξ, 0 ≤ g → f g ν ξ = g) ∧
    (∀ s t fs ft, 0 ≤ s → s ≤ t → driftNoise p s = .ok fs → driftNoise p t = .ok ft →
      ∀ g ν ξ ξ', 0 ≤ g → 0 ≤ ν → ft g ν ξ' ≤ fs g ν ξ) := by
  have ht0 : 0 < p.t0 := hr.trans_le h0
  have key : ∀ t, 0 ≤ t → ∀ f, driftNoise p t = .ok f → ∀ g ν ξ, 0 ≤ g →
      f g ν ξ = g * (1 + t / p.t0) ^ (-ν) := by
    intro t ht f hf g ν ξ hg
    rw [driftNoise_ok p hr h0 t ht, Except.ok.injEq] at hf
    subst hf
    simp only [hrs, mul_zero, zero_mul, add_zero]
    have e : (t + p.t0) / p.t0 = 1 + t / p.t0 := by field_simp; ring
    unfold driftPart
    by_cases h : t + p.t0 > p.t0
    · rw [if_pos h, e, max_eq_left]
      have : 0 ≤ 1 + t / p.t0 := by positivity
      positivity
    · have : t = 0 := by linarith
      subst this
      rw [if_neg h]
      simp [hg]
  have hbase : ∀ t, 0 ≤ t → 1 ≤ 1 + t / p.t0 := fun t ht => by
    have : 0 ≤ t / p.t0 := by positivity
    linarith
  refine ⟨fun t ht => ⟨_, driftNoise_ok p hr h0 t ht, fun g ν ξ hg hν => ?_⟩,
    ⟨_, driftNoise_ok p hr h0 0 le_rfl, fun g ν ξ hg => ?_⟩, ?_⟩
  · have e := key t ht _ (driftNoise_ok p hr h0 t ht) g ν ξ hg
    refine ⟨e, ?_, ?_⟩
    · rw [e]
      have : (1 + t / p.t0) ^ (-ν) ≤ 1 := Real.rpow_le_one_of_one_le_of_nonpos (hbase t ht) (by linarith)
      nlinarith
    · intro hg'
      rw [e]
      exact mul_pos hg' (Real.rpow_pos_of_pos (by linarith [hbase t ht]) _)
  · have e := key 0 le_rfl _ (driftNoise_ok p hr h0 0 le_rfl) g ν ξ hg
    rw [e]; simp
  · intro s t fs ft hs hst hfs hft g ν ξ ξ' hg hν
    rw [key s hs fs hfs g ν ξ hg, key t (hs.trans hst) ft hft g ν ξ' hg]
    apply mul_le_mul_of_nonneg_left _ hg
    apply Real.rpow_le_rpow_of_nonpos (by linarith [hbase s hs]) _ (by linarith)
    have : s / p.t0 ≤ t / p.t0 := div_le_div_of_nonneg_right hst ht0.le
    linarith

/-- Non-vacuity: the default PCM model. -/
example : ∃ p : Pars, p = mkPars .pcm 25 none none 1 0 1 20 (1 / 4000000) ∧ p.readScale = 0 ∧ 0 < p.tRead ∧
    p.tRead ≤ p.t0 ∧ 0 ≤ p.driftScale ∧ ∃ f, progNoise p = .ok f :=
  ⟨_, rfl, rfl, by norm_num [mkPars], by norm_num [mkPars], by norm_num [mkPars], by
    simp [progNoise, mkPars, initRef, defaults]⟩

/-! ## Whole tensors -/

/-- **C24** (`apply_noise` at time 0). For every converter and every weight tensor the generic `apply_noise` never returns
weights when `t_inference ≤ 0`. -/
theorem C24_apply_noise_raises (m : NoiseModel) (w : List ℝ) (t : ℝ) (ht : t ≤ 0) (ξ η ζ : Draw) (v : List ℝ)
    (gMax gMin : ℝ) (fs : List ℝ) (s : Spec ℝ) (hs : s ≠ []) :
    applyNoise (singleConv gMax gMin) m w t ξ η ζ ≠ .ok v ∧ applyNoise (nPairConv fs gMax gMin) m w t ξ η ζ ≠ .ok v ∧
    applyNoise (customConv s) m w t ξ η ζ ≠ .ok v ∧ applyNoise (deviceConv gMax gMin) m w t ξ η ζ ≠ .ok v := by
  have key : ∀ {P : Type} (c : Conv P), (∀ p u, c.backW [] p ≠ .ok u) → applyNoise c m w t ξ η ζ ≠ .ok v := by
    intro P c hc
    unfold applyNoise
    cases h1 : c.toG w with
    | error e => simp [bind, Except.bind]
    | ok r =>
      cases h2 : m.prog with
      | error e => simp [bind, Except.bind]
      | ok f =>
        simp only [bind, Except.bind, gt_iff_lt, not_lt.2 ht, if_false]
        exact hc _ _
  refine ⟨key _ ?_, key _ ?_, key _ ?_, key _ ?_⟩
  · intro p u; simp [singleConv, singleBack]
  · intro p u; simp [nPairConv, nPairBack]
  · intro p u
    simp only [customConv, customBack, List.length_map, List.length_nil]
    rw [if_pos (by have := List.length_pos_iff.2 hs; omega)]
    simp
  · intro p u; simp [deviceConv]

/-- Scaling all conductances scales the weights, for the pair converters. -/
def BackLinear {P : Type} (c : Conv P) : Prop := ∀ gs p w a, c.backW gs p = .ok w →
  c.backW (gs.map (·.map (· * a))) p = .ok (w.map (· * a))

theorem single_linear (gMax gMin : ℝ) : BackLinear (singleConv gMax gMin) := by
  intro gs p w a h
  simp only [singleConv] at h ⊢
  unfold singleBack at h ⊢
  match gs, h with
  | [], h => cases h
  | [_], h => cases h
  | [gp, gm], h =>
    simp only [List.map_cons, List.map_nil] at h ⊢
    by_cases hp : p = 0
    · simp [hp] at h
    · simp only [hp, if_false, Except.ok.injEq] at h ⊢
      subst h
      rw [List.map_zipWith, List.zipWith_map]
      congr 1
      funext x y
      ring
  | _ :: _ :: _ :: _, h => cases h

theorem addPairs_scale (a : ℝ) (fs : List ℝ) (gs : List (List ℝ)) (acc : List ℝ) :
    addPairs fs (gs.map (·.map (· * a))) (acc.map (· * a)) = (addPairs fs gs acc).map (· * a) := by
  induction fs generalizing gs acc with
  | nil => simp [addPairs]
  | cons f fs ih =>
    match gs with
    | [] => simp [addPairs]
    | [g] => simp [addPairs]
    | gp :: gm :: gs =>
      simp only [List.map_cons, addPairs]
      rw [← ih]
      congr 1
      rw [List.map_zipWith, List.zipWith_map_left]
      rw [List.zipWith_map, ]
      apply List.ext_getElem (by simp)
      intro i h1 h2
      simp only [List.getElem_zipWith]
      ring

theorem nPair_linear (fs : List ℝ) (gMax gMin : ℝ) : BackLinear (nPairConv fs gMax gMin) := by
  intro gs p w a h
  simp only [nPairConv] at h ⊢
  unfold nPairBack at h ⊢
  rw [List.length_map]
  by_cases h1 : gs.length % 2 ≠ 0
  · simp [h1] at h
  · rw [if_neg h1] at h ⊢
    cases gs with
    | nil => cases h
    | cons g gs =>
      by_cases hp : p = 0
      · simp [hp] at h
      · simp only [hp, if_false, Except.ok.injEq, List.map_cons] at h ⊢
        subst h
        have := addPairs_scale a fs (g :: gs) (g.map fun _ => 0)
        simp only [List.map_map, Function.comp_def, zero_mul, List.map_cons] at this ⊢
        rw [this, List.map_map]
        apply List.map_congr_left
        intro x _
        simp only [Function.comp_apply]; ring

theorem custom_linear (s : Spec ℝ) : BackLinear (customConv s) := by
  intro gs p w a h
  simp only [customConv] at h ⊢
  unfold customBack at h ⊢
  simp only [List.length_map] at h ⊢
  by_cases h1 : 2 * s.length ≠ gs.length
  · rw [if_pos h1] at h; cases h
  · rw [if_neg h1] at h ⊢
    cases gs with
    | nil => cases h
    | cons g gs =>
      by_cases hp : p = 0
      · simp [hp] at h
      · simp only [hp, if_false, Except.ok.injEq, List.map_cons] at h ⊢
        subst h
        have := addPairs_scale a (s.map (·.1)) (g :: gs) (g.map fun _ => 0)
        simp only [List.map_map, Function.comp_def, zero_mul, List.map_cons] at this ⊢
        rw [this, List.map_map]
        apply List.map_congr_left
        intro x _
        simp only [Function.comp_apply]; ring

theorem mapIdx_congr {α β : Type} (l : List α) (f : Nat → α → β) (g : α → β) (h : ∀ i, ∀ x ∈ l, f i x = g x) :
    l.mapIdx f = l.map g := by
  apply List.ext_getElem (by simp)
  intro i h1 h2
  rw [List.getElem_mapIdx, List.getElem_map]
  exact h i _ (List.getElem_mem _)

/-- **C24** (noise-free programming). With programming noise scale 0 and a converter that returns non-negative conductances
and round-trips the weights (C20, C21, C22), programming returns exactly the weights. -/
theorem C24_noise_free_programming {P : Type} (c : Conv P) (p : Pars) (hp : p.progScale = 0) (f : ℝ → ℝ → ℝ)
    (hf : progNoise p = .ok f) (w : List ℝ) (gs : List (List ℝ)) (q : P) (hto : c.toG w = .ok (gs, q))
    (hpos : ∀ g ∈ gs, ∀ x ∈ g, 0 ≤ x) (hback : c.backW gs q = .ok w) (ξ η : Draw) :
    (applyProgramming c (pcmModel p) w ξ η).map (·.1) = .ok w := by
  have hfv : ∀ g ξ, 0 ≤ g → f g ξ = g := by
    intro g ξ hg
    obtain ⟨r, _, _, h⟩ := C24_programming p f hf
    rw [(h g ξ).1, hp]
    simp [hg]
  have e : (gs.mapIdx fun k g => g.mapIdx fun i x => f x (ξ k i)) = gs := by
    conv_rhs => rw [← List.map_id gs]
    apply mapIdx_congr
    intro k g hg
    conv_rhs => rw [id, ← List.map_id g]
    apply mapIdx_congr
    intro i x hx
    exact hfv x _ (hpos g hg x hx)
  unfold applyProgramming
  simp only [hto, bind, Except.bind, pcmModel, hf, e, hback, pure, Except.pure, Except.map]

/-- **C24** (uniform drift). Without read noise, if every device has the same drift coefficient, drifting any weight tensor
through any of the pair converters multiplies all weights by the power-law factor. -/
theorem C24_uniform_drift {P : Type} (c : Conv P) (hl : BackLinear c) (p : Pars) (hrs : p.readScale = 0)
    (hr : 0 < p.tRead) (h0 : p.tRead ≤ p.t0) (w : List ℝ) (gs : List (List ℝ)) (q : P)
    (hto : c.toG w = .ok (gs, q)) (hpos : ∀ g ∈ gs, ∀ x ∈ g, 0 ≤ x) (hback : c.backW gs q = .ok w) (ν t : ℝ) (hν : 0 ≤ ν)
    (ht : 0 ≤ t) (ξ : Draw) :
    applyDrift c (pcmModel p) w (gs.map (·.map fun _ => ν)) t ξ = .ok (w.map (· * (1 + t / p.t0) ^ (-ν))) := by
  obtain ⟨f, hf, hfv⟩ := (C24_drift_power_law p hrs hr h0).1 t ht
  have e : ((List.zip gs (gs.map (·.map fun _ => ν))).mapIdx fun k q => (List.zip q.1 q.2).mapIdx fun i y =>
      f y.1 y.2 (ξ k i)) = gs.map (·.map (· * (1 + t / p.t0) ^ (-ν))) := by
    apply List.ext_getElem (by simp)
    intro i h1 h2
    simp only [List.getElem_mapIdx, List.getElem_zip, List.getElem_map]
    apply List.ext_getElem (by simp)
    intro j h3 h4
    simp only [List.getElem_mapIdx, List.getElem_zip, List.getElem_map]
    simp only [List.length_map] at h2 h4
    exact (hfv _ ν _ (hpos _ (List.getElem_mem h2) _ (List.getElem_mem h4)) hν).1
  unfold applyDrift
  simp only [hto, bind, Except.bind, pcmModel, hf, e]
  exact hl gs q w _ hback

/-- The hypotheses of the two theorems above are met by the single pair converter for every accepted range. -/
theorem C24_single_pair_instance (gMax gMin : ℝ) (hr : checkRange gMax gMin = .ok ()) (w : List ℝ) (hw : w ≠ []) :
    ∃ gs q, (singleConv gMax gMin).toG w = .ok (gs, q) ∧ (∀ g ∈ gs, ∀ x ∈ g, 0 ≤ x) ∧
      (singleConv gMax gMin).backW gs q = .ok w ∧ BackLinear (singleConv gMax gMin) := by
  obtain ⟨gp, gm, r, h1, _, _, h2, h3, _, h4⟩ := C20_single_pair gMax gMin hr w hw
  have h0 := (checkRange_ok hr).1
  refine ⟨[gp, gm], r, h1, ?_, h4, single_linear _ _⟩
  intro g hg x hx
  simp only [List.mem_cons, List.not_mem_nil, or_false] at hg
  rcases hg with rfl | rfl
  · exact h0.trans (h2 x hx).1
  · exact h0.trans (h3 x hx).1

/-- … and by the N pair converter. -/
theorem C24_n_pair_instance (fs : List ℝ) (gMax gMin : ℝ) (hi : nPairInit fs gMax gMin = .ok ()) (hf : ∀ f ∈ fs, 0 < f)
    (w : List ℝ) (hw : w ≠ []) :
    ∃ gs q, (nPairConv fs gMax gMin).toG w = .ok (gs, q) ∧ (∀ g ∈ gs, ∀ x ∈ g, 0 ≤ x) ∧
      (nPairConv fs gMax gMin).backW gs q = .ok w ∧ BackLinear (nPairConv fs gMax gMin) := by
  obtain ⟨gs, r, h1, _, h2, _, h4⟩ := C21_n_pairs fs gMax gMin hi hf w hw
  have h0 := ((C21_accepted_iff ..).1 hi).2.1
  exact ⟨gs, r, h1, fun g hg x hx => h0.trans ((h2 g hg).2 x hx).1, h4, nPair_linear _ _ _⟩

/-! ## Custom drift model -/

/-- **C24** (custom drift coefficients). Non-negative for every specification, conductance and Gaussian number. -/
theorem C24_custom_nu_nonneg (gs means stds : List ℝ) (s g ξ : ℝ) (hs : 0 ≤ s) : 0 ≤ customNu gs means stds s g ξ := by
  unfold customNu
  simp only
  apply mul_nonneg _ hs
  split_ifs with h
  all_goals first | exact le_rfl | exact abs_nonneg _

/-- **C24** (dictionary check). The constructor accepts exactly the dictionaries without unknown keys that contain `g_lst`;
such a dictionary is usable only if all three keys are present, so a missing `nu_mean_lst` or `nu_std_lst` is not reported
before the first programming. -/
theorem C24_custom_keys (keys : List String) :
    (customDriftInit keys = .ok () ↔
      (∀ k ∈ keys, k = "g_lst" ∨ k = "nu_mean_lst" ∨ k = "nu_std_lst") ∧ "g_lst" ∈ keys) ∧
    (customDriftGenerate keys = .ok () ↔ "g_lst" ∈ keys ∧ "nu_mean_lst" ∈ keys ∧ "nu_std_lst" ∈ keys) ∧
    customDriftInit ["g_lst", "nu_mean_lst"] = .ok () ∧
    customDriftGenerate ["g_lst", "nu_mean_lst"] = .error .typeError := by
  refine ⟨?_, ?_, by decide +kernel, by decide +kernel⟩
  · unfold customDriftInit
    have e : (keys.all (["g_lst", "nu_mean_lst", "nu_std_lst"].contains ·)) = true ↔
        ∀ k ∈ keys, k = "g_lst" ∨ k = "nu_mean_lst" ∨ k = "nu_std_lst" := by
      simp [List.all_eq_true]
    by_cases h : (keys.all (["g_lst", "nu_mean_lst", "nu_std_lst"].contains ·)) = true
    · rw [if_pos h]
      by_cases h2 : keys.contains "g_lst" = true
      · rw [if_pos h2]
        exact ⟨fun _ => ⟨e.1 h, by simpa using h2⟩, fun _ => rfl⟩
      · rw [if_neg h2]
        simp only [reduceCtorEq, false_iff, not_and]
        intro _ hm
        exact h2 (by simpa using hm)
    · rw [if_neg h]
      simp only [reduceCtorEq, false_iff, not_and]
      intro hh
      exact absurd (e.2 hh) h
  · unfold customDriftGenerate
    by_cases h : keys.contains "g_lst" ∧ keys.contains "nu_mean_lst" ∧ keys.contains "nu_std_lst"
    · rw [if_pos h]; simpa using h
    · rw [if_neg h]
      simp only [reduceCtorEq, false_iff]
      simpa using h

/-! ## ReRAM -/

/-- **C24** (ReRAM reference). With the default coefficients, fitted for 40 µS, the noise is not rescaled: whatever `g_max`,
the factor `g_max / 40` is missing; giving the reference explicitly makes every call raise `AttributeError`. -/
theorem C24_wan_reference (gMax : ℝ) (hg : 0 < gMax) (s : ℝ) :
    (∃ f, (wanModel (wanInit gMax none none s)).prog = .ok f ∧ ∀ g ξ,
      f g ξ = max 0 (g + s * polyVal [348 / 1000, 16030 / 1000, -(43853 / 1000), 45393 / 1000, -(16815 / 1000)] (g / gMax) * ξ)) ∧
    ∀ r, (wanModel (wanInit gMax none (some r) s)).prog = .error .attributeError := by
  have hmin : minKey wanDefault = some (1, [348 / 1000, 16030 / 1000, -(43853 / 1000), 45393 / 1000, -(16815 / 1000)]) := by
    simp only [wanDefault, minKey]
    norm_num
  refine ⟨?_, fun r => ?_⟩
  · simp only [wanModel, wanInit, Option.getD_none, hmin, wanPoly, Option.isNone_none, if_true, hg.ne', if_false]
    refine ⟨_, rfl, fun g ξ => ?_⟩
    rw [sigLoop_poly, div_self hg.ne', max_comm, mul_one]
  · simp only [wanModel, wanInit, Option.getD_none, hmin, wanPoly, Option.isNone_some, Bool.false_eq_true, if_false]

/-- **C24** (ReRAM times). Drifting to any time that is not one of the tabulated ones raises `ArgumentError`; in particular
the default `drift_weights()` (time 0) of the default model. -/
theorem C24_wan_times (m : Wan) (t : ℝ) :
    ((∀ e ∈ m.coeffs, e.1 ≠ t) → (wanModel m).drift t = .error .argumentError) ∧
    (wanModel (wanInit 40 none none 1)).drift 0 = .error .argumentError := by
  have : ∀ (m : Wan) (t : ℝ), (∀ e ∈ m.coeffs, e.1 ≠ t) → (wanModel m).drift t = .error .argumentError := by
    intro m t h
    have hf : m.coeffs.find? (fun e => e.1 = t) = none := by
      rw [List.find?_eq_none]
      intro e he
      simpa using h e he
    simp only [wanModel, hf]
  refine ⟨this m t, this _ _ ?_⟩
  intro e he
  simp only [wanInit, wanDefault, Option.getD_none, List.mem_cons, List.not_mem_nil, or_false] at he
  rcases he with rfl | rfl | rfl <;> norm_num

/-- **C24** (ReRAM scale mismatch). Drifting the programmed weights of the ReRAM model with all drift noise zero does not
return the target weights: they come back multiplied by the ratio of the largest programmed to the largest target magnitude. -/
theorem C24_wan_rescaled (gMax gMin : ℝ) (hr : checkRange gMax gMin = .ok ()) (m : Wan) (w w' : List ℝ) (hw : w ≠ [])
    (nus : List (List ℝ)) (ξ η : Draw) (t : ℝ) (f : ℝ → ℝ → ℝ → ℝ)
    (hprog : applyProgramming (singleConv gMax gMin) (wanModel m) w ξ η = .ok (w', nus))
    (ht : (wanModel m).drift t = .ok f) :
    applyDrift (singleConv gMax gMin) (wanModel m) w' nus t (fun _ _ => 0) =
      .ok (w.map (· * (max (amaxK w') zeroClip / max (amaxK w) zeroClip))) := by
  obtain ⟨h0, h1⟩ := checkRange_ok hr
  obtain ⟨gp, gm, r, e1, l1, l2, b1, b2, _, back⟩ := C20_single_pair gMax gMin hr w hw
  -- the drift function without noise is the identity on the coefficient
  have hfv : ∀ x g, 0 ≤ g → f x g 0 = g := by
    simp only [wanModel] at ht
    cases hfind : m.coeffs.find? (fun e => e.1 = t) with
    | none => rw [hfind] at ht; cases ht
    | some e =>
      rw [hfind] at ht
      simp only [wanPoly] at ht
      cases hc : e.2 with
      | nil => rw [hc] at ht; cases ht
      | cons c0 cs =>
        rw [hc] at ht
        cases hrf : m.ref with
        | none => rw [hrf] at ht; cases ht
        | some rr =>
          rw [hrf] at ht
          by_cases hz : rr = 0
          · simp [hz, bind, Except.bind] at ht
          · simp only [hz, if_false, bind, Except.bind, pure, Except.pure, Except.ok.injEq] at ht
            subst ht
            intro x g hg
            simp [hg]
  unfold applyProgramming at hprog
  simp only [singleConv, e1, bind, Except.bind] at hprog
  cases hp : (wanModel m).prog with
  | error e => rw [hp] at hprog; cases hprog
  | ok pf =>
    rw [hp] at hprog
    simp only [List.mapIdx_cons, List.mapIdx_nil] at hprog
    have hnu : ∀ (l : List ℝ) (k : Nat), (l.mapIdx fun i x => (wanModel m).nu x (η k i)) = l := by
      intro l k
      conv_rhs => rw [← List.map_id l]
      apply mapIdx_congr
      intro i x _
      rfl
    have hr0 : 0 < r := by
      have : singleTo gMax gMin w = .ok ([gp, gm], r) := e1
      unfold singleTo at this
      rw [if_neg hw, Except.ok.injEq, Prod.mk.injEq] at this
      rw [← this.2]
      exact div_pos (sub_pos.2 h1) (denom_pos w)
    simp only [hnu, singleBack, hr0.ne', if_false, pure, Except.pure, Except.ok.injEq, Prod.mk.injEq] at hprog
    obtain ⟨hw', hnus⟩ := hprog
    subst hnus
    have hlen : w'.length = w.length := by
      rw [← hw']; simp [l1, l2]
    have hw'ne : w' ≠ [] := by
      intro h
      rw [h] at hlen
      exact hw (List.length_eq_zero_iff.1 hlen.symm)
    obtain ⟨gp', gm', r', e1', l1', l2', _, _, _, _⟩ := C20_single_pair gMax gMin hr w' hw'ne
    have hr' : r' = (gMax - gMin) / max (amaxK w') zeroClip := by
      have : singleTo gMax gMin w' = .ok ([gp', gm'], r') := e1'
      unfold singleTo at this
      rw [if_neg hw'ne, Except.ok.injEq, Prod.mk.injEq] at this
      exact this.2.symm
    have hrr : r = (gMax - gMin) / max (amaxK w) zeroClip := by
      have : singleTo gMax gMin w = .ok ([gp, gm], r) := e1
      unfold singleTo at this
      rw [if_neg hw, Except.ok.injEq, Prod.mk.injEq] at this
      exact this.2.symm
    have hr'0 : 0 < r' := by rw [hr']; exact div_pos (sub_pos.2 h1) (denom_pos w')
    have hz : ∀ (a b : List ℝ), a.length = b.length → (∀ x ∈ b, 0 ≤ x) →
        ((List.zip a b).mapIdx fun _ y => f y.1 y.2 0) = b := by
      intro a b hab hb
      apply List.ext_getElem (by simp [hab])
      intro i h1 h2
      simp only [List.getElem_mapIdx, List.getElem_zip]
      exact hfv _ _ (hb _ (List.getElem_mem _))
    unfold applyDrift
    simp only [singleConv, e1', bind, Except.bind, ht, List.zip_cons_cons, List.zip_nil_right, List.mapIdx_cons, List.mapIdx_nil]
    rw [hz gp' gp (by rw [l1', l1, hlen]) (fun x hx => h0.trans (b1 x hx).1),
      hz gm' gm (by rw [l2', l2, hlen]) (fun x hx => h0.trans (b2 x hx).1)]
    simp only [singleBack, hr'0.ne', hr0.ne', if_false, Except.ok.injEq] at back ⊢
    have key : List.zipWith (fun a b => (a - gMin - (b - gMin)) / r') gp gm =
        (List.zipWith (fun a b => (a - gMin - (b - gMin)) / r) gp gm).map (· * (r / r')) := by
      rw [List.map_zipWith]
      congr 1
      funext a b
      field_simp
    rw [key, back]
    apply List.map_congr_left
    intro x _
    have hd := denom_pos w
    have hd' := denom_pos w'
    have hD := sub_pos.2 h1
    rw [hr', hrr]
    field_simp

/-- **C24** (CMO ReRAM acceptance range). The constructor's default acceptance range, 0.02, is no key of the default table
(0.2 and 2), so the coefficients for 0.2 are silently used. -/
theorem C24_cmo_acceptance (gMax gMin : ℝ) : (cmoInit gMax gMin none (2 / 100)).range = 2 / 10 := by
  simp only [cmoInit, cmoRange, cmoDefault, Option.getD_none, List.find?_cons, List.find?_nil, minKey]
  norm_num

/-- **C24** (CMO ReRAM programming is not cut off). For every non-negative target conductance some Gaussian number gives a
negative programmed conductance, which a drift to time 0 returns unchanged. -/
theorem C24_cmo_negative (gMax gMin range g : ℝ) (hg : 0 ≤ g) : ∃ f ξ, cmoProg (cmoInit gMax gMin none range) = .ok f ∧
    f g ξ < 0 ∧ ∀ ξ' ξ'', cmoDrift (cmoInit gMax gMin none range) 0 (f g ξ) ξ' ξ'' = .ok (f g ξ) := by
  have key : ∀ c0 c1 : ℝ, 0 < c0 → 0 < c1 → ∃ ξ, g + sigLoop g 1 c0 [c1] * ξ * 1 < 0 := by
    intro c0 c1 h0 h1
    have hs : 0 < sigLoop g 1 c0 [c1] := by simp only [sigLoop]; positivity
    refine ⟨-(g + 1) / sigLoop g 1 c0 [c1], ?_⟩
    rw [mul_div_cancel₀ _ hs.ne']; linarith
  have hm : minKey cmoDefault = some (2 / 10, [81107 / 100000000, 106879 / 100000000]) := by
    simp only [cmoDefault, minKey]; norm_num
  have hcases : (cmoRange cmoDefault range = 2 / 10) ∨ (cmoRange cmoDefault range = 2) := by
    unfold cmoRange
    rw [hm]
    by_cases h1 : range = 2 / 10
    · left; simp [h1]
    · by_cases h2 : range = 2
      · right; rw [if_pos]; exact h2
        simp [cmoDefault, h2]
      · left
        rw [if_neg]; rfl
        simp [cmoDefault, Ne.symm h1, Ne.symm h2]
  rcases hcases with h | h
  · obtain ⟨ξ, hξ⟩ := key (81107 / 100000000) (106879 / 100000000) (by norm_num) (by norm_num)
    refine ⟨fun g ξ => g + sigLoop g 1 (81107 / 100000000) [106879 / 100000000] * ξ * 1, ξ, ?_, hξ, fun _ _ => by simp [cmoDrift]⟩
    simp only [cmoProg, cmoInit, Option.getD_none, h]
    simp [cmoDefault]
  · obtain ⟨ξ, hξ⟩ := key (112185391 / 10000000000) (1129027418 / 100000000000) (by norm_num) (by norm_num)
    refine ⟨fun g ξ => g + sigLoop g 1 (112185391 / 10000000000) [1129027418 / 100000000000] * ξ * 1, ξ, ?_, hξ, fun _ _ => by simp [cmoDrift]⟩
    simp only [cmoProg, cmoInit, Option.getD_none, h]
    simp only [cmoDefault, List.find?_cons]
    norm_num

/-- **C24** (CMO ReRAM drift). At any non-zero time a drifted conductance that is a number lies in `[g_min, g_max]`; it is NaN
for times below the read time and whenever the relaxed conductance is not positive. -/
theorem C24_cmo_drift (m : Cmo) (hm : m.gMin ≤ m.gMax) (t g ξ ξ' : ℝ) (ht : t ≠ 0) :
    (∀ v, cmoDrift m t g ξ ξ' = .ok v → m.gMin ≤ v ∧ v ≤ m.gMax) ∧
    (cmoRelaxed m t g ξ ≤ 0 → cmoDrift m t g ξ ξ' = .error .nanInf) := by
  unfold cmoDrift
  rw [if_neg ht]
  by_cases h : t < 0 ∨ (t + m.tRead) / (2 * m.tRead) < 1
  · simp [h]
  · rw [if_neg h]
    by_cases h2 : cmoRelaxed m t g ξ ≤ 0
    · simp [h2]
    · simp only [h2, if_false, Except.ok.injEq, false_implies, and_true]
      rintro v rfl
      exact ⟨le_min (le_max_right _ _) hm, min_le_right _ _⟩

/-- **C24** (drift coefficients belong to the targets). Programming draws the drift coefficient of every device from its *target*
conductance, not from the noisy one. -/
theorem C24_nu_from_target {P : Type} (c : Conv P) (m : NoiseModel) (w : List ℝ) (ξ η : Draw) (w' : List ℝ) (nus : List (List ℝ))
    (h : applyProgramming c m w ξ η = .ok (w', nus)) :
    ∃ gs p, c.toG w = .ok (gs, p) ∧ ∀ k (hk : k < gs.length) i (hi : i < gs[k].length),
      (nus.getD k []).getD i 0 = m.nu gs[k][i] (η k i) := by
  unfold applyProgramming at h
  cases hc : c.toG w with
  | error e => rw [hc] at h; cases h
  | ok q =>
    obtain ⟨gs, p⟩ := q
    rw [hc] at h
    refine ⟨gs, p, rfl, fun k hk i hi => ?_⟩
    cases hf : m.prog with
    | error e => rw [hf] at h; cases h
    | ok f =>
      rw [hf] at h
      change (c.backW _ p >>= fun w' => pure (w', _)) = _ at h
      generalize hb : c.backW _ p = r at h
      cases r with
      | error e => cases h
      | ok w'' =>
        cases h
        rw [List.getD_eq_getElem (d := ([] : List ℝ)) (hn := by simpa using hk), List.getElem_mapIdx,
          List.getD_eq_getElem (hn := by simpa using hi), List.getElem_mapIdx]

/-- **C24** (what is programmed). The programmed weights are the conversion back of conductances that differ from the targets by the
programming noise of their own draw, device by device. -/
theorem C24_programmed {P : Type} (c : Conv P) (m : NoiseModel) (w : List ℝ) (ξ η : Draw) (w' : List ℝ) (nus : List (List ℝ))
    (h : applyProgramming c m w ξ η = .ok (w', nus)) :
    ∃ (gs : List (List ℝ)) (p : P) (f : ℝ → ℝ → ℝ) (noisy : List (List ℝ)), c.toG w = .ok (gs, p) ∧ m.prog = .ok f ∧
      c.backW noisy p = .ok w' ∧ noisy.map List.length = gs.map List.length ∧
      ∀ k (hk : k < gs.length) i (hi : i < gs[k].length), (noisy.getD k []).getD i 0 = f gs[k][i] (ξ k i) := by
  unfold applyProgramming at h
  cases hc : c.toG w with
  | error e => rw [hc] at h; cases h
  | ok q =>
    obtain ⟨gs, p⟩ := q
    rw [hc] at h
    cases hf : m.prog with
    | error e => rw [hf] at h; cases h
    | ok f =>
      rw [hf] at h
      change (c.backW _ p >>= fun w' => pure (w', _)) = _ at h
      generalize hb : c.backW _ p = r at h
      cases r with
      | error e => cases h
      | ok w'' =>
        cases h
        refine ⟨gs, p, f, _, rfl, rfl, hb, ?_, ?_⟩
        · apply List.ext_getElem
          · simp
          · intro k h1 h2; simp
        · intro k hk i hi
          rw [List.getD_eq_getElem (d := ([] : List ℝ)) (hn := by simpa using hk), List.getElem_mapIdx,
            List.getD_eq_getElem (hn := by simpa using hi), List.getElem_mapIdx]

/-- **C24** (what drifts). Drifted weights are the conversion back of conductances drifted device by device, each with its own stored
coefficient and its own draw. -/
theorem C24_drifted {P : Type} (c : Conv P) (m : NoiseModel) (w : List ℝ) (nus : List (List ℝ)) (t : ℝ) (ξ : Draw) (w' : List ℝ)
    (h : applyDrift c m w nus t ξ = .ok w') :
    ∃ (gs : List (List ℝ)) (p : P) (f : ℝ → ℝ → ℝ → ℝ) (noisy : List (List ℝ)), c.toG w = .ok (gs, p) ∧ m.drift t = .ok f ∧
      c.backW noisy p = .ok w' ∧ ∀ k (hk : k < gs.length) (hk' : k < nus.length) i (hi : i < gs[k].length) (hi' : i < nus[k].length),
        (noisy.getD k []).getD i 0 = f gs[k][i] nus[k][i] (ξ k i) := by
  unfold applyDrift at h
  cases hc : c.toG w with
  | error e => rw [hc] at h; cases h
  | ok q =>
    obtain ⟨gs, p⟩ := q
    rw [hc] at h
    cases hf : m.drift t with
    | error e => rw [hf] at h; cases h
    | ok f =>
      rw [hf] at h
      refine ⟨gs, p, f, _, rfl, rfl, h, ?_⟩
      intro k hk hk' i hi hi'
      rw [List.getD_eq_getElem (d := ([] : List ℝ)) (hn := by simp [hk, hk']), List.getElem_mapIdx,
        List.getD_eq_getElem (hn := by simp [hi, hi']), List.getElem_mapIdx]
      simp

/-- **C24** (ReRAM relaxation). Without read noise the relaxed conductance is the target plus the scaled mean and spread, both affine in the
logarithm of time, clipped to the conductance range. -/
theorem C24_cmo_relaxation (m : Cmo) (hr : m.readScale = 0) (t g ξ ξ' : ℝ) (ht : 0 < t) (ht' : 1 ≤ (t + m.tRead) / (2 * m.tRead))
    (hg : 0 < g + m.driftScale * (m.decayMean * Real.log t + (m.decayStd0 * Real.log t + m.decayStd1) * ξ)) :
    cmoDrift m t g ξ ξ' = .ok (min (max (g + m.driftScale * (m.decayMean * Real.log t + (m.decayStd0 * Real.log t + m.decayStd1) * ξ)) m.gMin)
      m.gMax) := by
  have e : cmoRelaxed m t g ξ = g + m.driftScale * (m.decayMean * Real.log t + (m.decayStd0 * Real.log t + m.decayStd1) * ξ) := by
    unfold cmoRelaxed; ring
  unfold cmoDrift
  rw [if_neg ht.ne', if_neg (by simp only [not_or, not_lt]; exact ⟨ht.le, ht'⟩)]
  simp only
  rw [e, if_neg (not_le.2 hg), hr, mul_zero, add_zero]

end Aihw.Inference
