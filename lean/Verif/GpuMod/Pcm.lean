import Verif.GpuMod.Props

/-!
# C42: PCM noise on the GPU
-/
namespace Aihw.GpuMod
open Aihw.PostUpdate.Modifier (polySigma)

variable {f : Fns} {q : PcmPars} {scale gMax a : ℚ} {r : Draws} {i : ℕ} {w : ℚ}

/-- The threshold below which nothing is programmed. -/
def threshold (q : PcmPars) (scale : ℚ) : ℚ := q.zeroThres * scale * (26348 / 100000)

theorem pcmStart_spec (thres : ℚ) (ha : 0 < a) (w : ℚ) : PcmStart thres gMax a w (pcmStart thres gMax a w) := by
  refine ⟨max (min w a) (-a), fun h => ?_, fun h => ?_, fun h1 h2 => ?_, fun h => ?_, fun h => ?_⟩
  · rw [min_eq_right h, max_eq_left (by linarith)]
  · rw [min_eq_left (by linarith), max_eq_right h]
  · rw [min_eq_left h2, max_eq_left h1]
  · unfold pcmStart; dsimp only; rw [if_pos h]
  · unfold pcmStart; dsimp only; rw [if_neg (not_lt.2 h)]

theorem pcmStart_unique {thres : ℚ} (ha : 0 < a) {w g g' : ℚ} (h : PcmStart thres gMax a w g)
    (h' : PcmStart thres gMax a w g') : g = g' := by
  obtain ⟨c, c1, c2, c3, c4, c5⟩ := h
  obtain ⟨c', c1', c2', c3', c4', c5'⟩ := h'
  have : c = c' := by
    rcases le_total a w with h | h
    · rw [c1 h, c1' h]
    · rcases le_total w (-a) with h2 | h2
      · rw [c2 h2, c2' h2]
      · rw [c3 h2 h, c3' h2 h]
  subst this
  rcases lt_or_ge thres |c * gMax / a| with h | h
  · rw [c4 h, c4' h]
  · rw [c5 h, c5' h]

/-- The starting conductance has the sign of the weight. -/
theorem start_sign {thres : ℚ} (ha : 0 < a) (hg : 0 < gMax) {g : ℚ} (h : PcmStart thres gMax a w g) :
    (0 ≤ w → 0 ≤ g) ∧ (w ≤ 0 → g ≤ 0) := by
  obtain ⟨c, c1, c2, c3, c4, c5⟩ := h
  have hc : (0 ≤ w → 0 ≤ c) ∧ (w ≤ 0 → c ≤ 0) := by
    rcases le_total a w with h | h
    · rw [c1 h]; exact ⟨fun _ => ha.le, fun hw => by linarith⟩
    · rcases le_total w (-a) with h2 | h2
      · rw [c2 h2]; exact ⟨fun hw => by linarith, fun _ => by linarith⟩
      · rw [c3 h2 h]; exact ⟨id, id⟩
  rcases lt_or_ge thres |c * gMax / a| with h | h
  · rw [c4 h]
    exact ⟨fun hw => div_nonneg (mul_nonneg (hc.1 hw) hg.le) ha.le,
      fun hw => div_nonpos_of_nonpos_of_nonneg (mul_nonpos_of_nonpos_of_nonneg (hc.2 hw) hg.le) ha.le⟩
  · rw [c5 h]; exact ⟨fun _ => le_refl _, fun _ => le_refl _⟩

/-- The result of the kernel, split by whether something is programmed. -/
theorem kPcm_split (f : Fns) (q : PcmPars) (scale gMax a : ℚ) (r : Draws) (i : ℕ) (w : ℚ) :
    (pcmTarget q gMax r i (pcmStart (threshold q scale) gMax a w) = 0 → kPcm f q scale gMax a r i w = 0) ∧
    ∃ v, (pcmTarget q gMax r i (pcmStart (threshold q scale) gMax a w) ≠ 0 →
      kPcm f q scale gMax a r i w = keepSign true (pcmStart (threshold q scale) gMax a w) (v / gMax * a) ∧
      v = pcmRead f scale (q.tInference + q.t0) gMax (r.read i)
        (pcmProg scale gMax (r.prog i) (pcmTarget q gMax r i (pcmStart (threshold q scale) gMax a w)))
        (pcmDrift f (q.tInference + q.t0) q.t0 gMax (r.drift i)
          (pcmProg scale gMax (r.prog i) (pcmTarget q gMax r i (pcmStart (threshold q scale) gMax a w))))) := by
  constructor
  · intro h
    unfold kPcm
    dsimp only
    rw [if_neg]
    intro hh
    unfold threshold at h
    rw [h, abs_zero] at hh
    exact lt_irrefl _ hh
  · refine ⟨_, fun h => ⟨?_, rfl⟩⟩
    unfold kPcm
    dsimp only
    rw [if_pos]
    · rfl
    · exact abs_pos.2 h

theorem keepSign_sign (s v : ℚ) : (0 ≤ s → 0 ≤ keepSign true s v) ∧ (s < 0 → keepSign true s v ≤ 0) := by
  unfold keepSign
  simp only [if_true]
  constructor
  · intro h; rw [if_neg (not_lt.2 h)]; exact abs_nonneg _
  · intro h; rw [if_pos h]; exact neg_nonpos.2 (abs_nonneg _)

theorem keepSign_abs (s v : ℚ) : |keepSign true s v| = |v| := by
  unfold keepSign
  simp only [if_true]
  split_ifs
  · rw [abs_neg, abs_abs]
  · exact abs_abs _

/-- **Signs.** Whatever is drawn, a weight that is not negative does not become negative, and a negative one whose
conductance is above the threshold does not become positive (below the threshold it may, if it is stuck). -/
theorem C42_gpu_pcm_sign (f : Fns) (q : PcmPars) (scale : ℚ) (ha : 0 < a) (hg : 0 < gMax) (r : Draws) (i : ℕ) (w : ℚ) :
    (0 ≤ w → 0 ≤ kPcm f q scale gMax a r i w) ∧
    (∀ g, PcmStart (threshold q scale) gMax a w g → w < 0 → g ≠ 0 → kPcm f q scale gMax a r i w ≤ 0) := by
  have hsp := pcmStart_spec (gMax := gMax) (threshold q scale) ha w
  obtain ⟨h0, v, hv⟩ := kPcm_split f q scale gMax a r i w
  constructor
  · intro hw
    by_cases ht : pcmTarget q gMax r i (pcmStart (threshold q scale) gMax a w) = 0
    · rw [h0 ht]
    · rw [(hv ht).1]
      exact (keepSign_sign _ _).1 ((start_sign ha hg hsp).1 hw)
  · intro g hgs hw hg0
    have e := pcmStart_unique ha hgs hsp
    by_cases ht : pcmTarget q gMax r i (pcmStart (threshold q scale) gMax a w) = 0
    · rw [h0 ht]
    · rw [(hv ht).1]
      have h1 := (start_sign ha hg hsp).2 hw.le
      rw [e] at hg0
      exact (keepSign_sign _ _).2 (lt_of_le_of_ne h1 hg0)

/-- **Nothing programmed.** Without stuck devices a weight below the threshold, or hit by a reset, is exactly zero. -/
theorem C42_gpu_pcm_zero (f : Fns) (q : PcmPars) (scale : ℚ) (ha : 0 < a) (hg : 0 < gMax) (r : Draws) (i : ℕ) (w : ℚ)
    (hp : q.probGmax ≤ 0) (hr : q.probRandom ≤ 0)
    (h : PcmStart (threshold q scale) gMax a w 0 ∨ (0 < q.probReset ∧ r.reset i < q.probReset)) :
    kPcm f q scale gMax a r i w = 0 := by
  apply (kPcm_split f q scale gMax a r i w).1
  have e : pcmReset q.probReset (r.reset i) (pcmStart (threshold q scale) gMax a w) = 0 := by
    unfold pcmReset
    rcases h with h | ⟨h1, h2⟩
    · rw [← pcmStart_unique ha h (pcmStart_spec _ ha w)]
      split_ifs <;> rfl
    · rw [if_pos h1, if_pos h2]
  unfold pcmTarget
  dsimp only
  rw [e]
  unfold pcmGmax pcmRandom
  rw [if_neg (not_lt.2 hp), if_neg (not_lt.2 hr), max_eq_left (by linarith), min_eq_left hg.le]

/-- The conductance that is programmed, without resets, stuck and random devices, is the starting one. -/
theorem target_plain (q : PcmPars) {thres : ℚ} (ha : 0 < a) (hg : 0 < gMax) (r : Draws) (i : ℕ) (w : ℚ)
    (h1 : q.probReset ≤ 0) (h2 : q.probGmax ≤ 0) (h3 : q.probRandom ≤ 0) :
    pcmTarget q gMax r i (pcmStart thres gMax a w) = pcmStart thres gMax a w := by
  have hb : |pcmStart thres gMax a w| ≤ gMax := by
    obtain ⟨c, c1, c2, c3, c4, c5⟩ := pcmStart_spec (gMax := gMax) thres ha w
    have hc : |c| ≤ a := by
      rcases le_total a w with h | h
      · rw [c1 h, abs_of_pos ha]
      · rcases le_total w (-a) with h2 | h2
        · rw [c2 h2, abs_neg, abs_of_pos ha]
        · rw [c3 h2 h]; exact abs_le.2 ⟨h2, h⟩
    rcases lt_or_ge thres |c * gMax / a| with h | h
    · rw [c4 h, abs_div, abs_mul, abs_of_pos ha, abs_of_pos hg, div_le_iff₀ ha, mul_comm]
      exact mul_le_mul_of_nonneg_left hc hg.le
    · rw [c5 h, abs_zero]; exact hg.le
  unfold pcmTarget pcmReset pcmGmax pcmRandom
  dsimp only
  rw [if_neg (not_lt.2 h1), if_neg (not_lt.2 h2), if_neg (not_lt.2 h3), max_eq_left (abs_le.1 hb).1,
    min_eq_left (abs_le.1 hb).2]

/-- **No noise.** With scale zero, no time after programming, and no resets, stuck or random devices, the weights are only
limited to the reference maximum. -/
theorem C42_gpu_pcm_exact (f : Fns) (q : PcmPars) (ha : 0 < a) (hg : 0 < gMax) (r : Draws) (i : ℕ) (w : ℚ)
    (h1 : q.probReset ≤ 0) (h2 : q.probGmax ≤ 0) (h3 : q.probRandom ≤ 0) (ht : q.tInference ≤ 0) :
    kPcm f q 0 gMax a r i w = max (min w a) (-a) := by
  have hth : threshold q 0 = 0 := by unfold threshold; ring
  obtain ⟨h0, v, hv⟩ := kPcm_split f q 0 gMax a r i w
  rw [target_plain q ha hg r i w h1 h2 h3, hth] at h0 hv
  set g := pcmStart 0 gMax a w with hgdef
  have hgv : g = max (min w a) (-a) * gMax / a := by
    rw [hgdef]; unfold pcmStart; dsimp only
    by_cases h : |max (min w a) (-a) * gMax / a| > 0
    · rw [if_pos h]
    · rw [if_neg h]; push Not at h; exact (abs_nonpos_iff.1 h).symm
  have hback : g / gMax * a = max (min w a) (-a) := by
    rw [hgv]; field_simp
  by_cases hz : g = 0
  · rw [h0 hz, ← hback, hz]; ring
  · obtain ⟨e1, e2⟩ := hv hz
    have ep : pcmProg 0 gMax (r.prog i) g = g := by unfold pcmProg; dsimp only; ring
    have ed : pcmDrift f (q.tInference + q.t0) q.t0 gMax (r.drift i) g = g := by
      unfold pcmDrift; rw [if_neg (by push Not; linarith)]
    have er : pcmRead f 0 (q.tInference + q.t0) gMax (r.read i) g g = g := by
      unfold pcmRead
      dsimp only
      split_ifs
      · ring
      · rfl
    rw [ep, ed, er] at e2
    rw [e1, e2, hback]
    have hsg : (0 ≤ g → 0 ≤ max (min w a) (-a)) ∧ (g < 0 → max (min w a) (-a) < 0) := by
      rw [← hback]
      exact ⟨fun h => mul_nonneg (div_nonneg h hg.le) ha.le,
        fun h => mul_neg_of_neg_of_pos (div_neg_of_neg_of_pos h hg) ha⟩
    unfold keepSign
    simp only [if_true]
    by_cases hs : g < 0
    · rw [if_pos hs, abs_of_neg (hsg.2 hs), neg_neg]
    · rw [if_neg hs, abs_of_nonneg (hsg.1 (not_lt.1 hs))]

/-- **Noise.** Without resets, stuck and random devices, a programmed weight (`g ≠ 0`) is, up to the kept sign, the
conductance with programming noise of the documented standard deviation `scale · (0.26348 + 1.965 ρ - 1.1731 ρ²)`,
`ρ = |g| / gMax`, times a drift factor `(t / t0) ^ (-ν)` with `ν = |ξ σ|`, `0.008 ≤ σ ≤ 0.045` (none at `t0`), with read noise
proportional to its magnitude (of relative size at most `0.2 · scale ·` the factor of the time), scaled back by `a / gMax`. -/
theorem C42_gpu_pcm_noise (f : Fns) (q : PcmPars) (scale : ℚ) (ha : 0 < a) (hg : 0 < gMax) (r : Draws) (i : ℕ) (w g : ℚ)
    (h1 : q.probReset ≤ 0) (h2 : q.probGmax ≤ 0) (h3 : q.probRandom ≤ 0) (ht0 : 0 < q.t0) (ht : 0 ≤ q.tInference)
    (hs : PcmStart (threshold q scale) gMax a w g) (hn : g ≠ 0) :
    ∃ gProg gDrift σ Q, gProg = g + scale * polySigma [26348 / 100000, 19650 / 10000, -11731 / 10000] (|g| / gMax) * r.prog i ∧
      (q.tInference = 0 → gDrift = gProg) ∧
      (0 < q.tInference → gDrift = gProg * f.pow ((q.tInference + q.t0) / q.t0) (-|r.drift i * σ|)) ∧
      8 / 1000 ≤ σ ∧ σ ≤ 45 / 1000 ∧ Q ≤ 2 / 10 ∧ 0 < Q ∧
      |kPcm f q scale gMax a r i w| =
        a / gMax * |gDrift + scale * |gDrift| * (Q * f.logSqrt (q.tInference + q.t0)) * r.read i| := by
  obtain ⟨-, v, hv⟩ := kPcm_split f q scale gMax a r i w
  rw [target_plain q ha hg r i w h1 h2 h3, ← pcmStart_unique ha hs (pcmStart_spec _ ha w)] at hv
  obtain ⟨e1, e2⟩ := hv hn
  have eP : pcmProg scale gMax (r.prog i) g =
      g + scale * polySigma [26348 / 100000, 19650 / 10000, -11731 / 10000] (|g| / gMax) * r.prog i := by
    unfold pcmProg polySigma
    dsimp only
    simp only [List.length_cons, List.length_nil, Finset.sum_range_succ, Finset.sum_range_zero, List.getD_cons_zero,
      List.getD_cons_succ]
    rw [abs_div, abs_of_pos hg]
    ring
  refine ⟨pcmProg scale gMax (r.prog i) g,
    pcmDrift f (q.tInference + q.t0) q.t0 gMax (r.drift i) (pcmProg scale gMax (r.prog i) g),
    min (max (-(125 / 10000) * f.log (max |pcmProg scale gMax (r.prog i) g / gMax| (1 / 1000000)) - 59 / 10000)
      (8 / 1000)) (45 / 1000),
    min (88 / 10000 / max (f.pow |pcmProg scale gMax (r.prog i) g / gMax| (65 / 100)) (1 / 1000)) (2 / 10),
    eP, fun h => ?_, fun h => ?_, ?_, min_le_right _ _, min_le_right _ _, ?_, ?_⟩
  · unfold pcmDrift; rw [if_neg (by rw [h]; push Not; linarith)]
  · unfold pcmDrift; rw [if_pos (by linarith)]
  · exact le_min (le_max_right _ _) (by norm_num)
  · exact lt_min (div_pos (by norm_num) (lt_of_lt_of_le (by norm_num) (le_max_right _ _))) (by norm_num)
  · rw [e1, keepSign_abs, e2, abs_mul, abs_div, abs_of_pos hg, abs_of_pos ha]
    have : pcmRead f scale (q.tInference + q.t0) gMax (r.read i) (pcmProg scale gMax (r.prog i) g)
        (pcmDrift f (q.tInference + q.t0) q.t0 gMax (r.drift i) (pcmProg scale gMax (r.prog i) g)) =
        pcmDrift f (q.tInference + q.t0) q.t0 gMax (r.drift i) (pcmProg scale gMax (r.prog i) g) +
          scale * |pcmDrift f (q.tInference + q.t0) q.t0 gMax (r.drift i) (pcmProg scale gMax (r.prog i) g)| *
          (min (88 / 10000 / max (f.pow |pcmProg scale gMax (r.prog i) g / gMax| (65 / 100)) (1 / 1000)) (2 / 10) *
            f.logSqrt (q.tInference + q.t0)) * r.read i := by
      rw [pcmRead, if_pos (by linarith)]
    rw [this]
    ring

/-- **Stuck devices.** Without noise, time and threshold, a weight hit by "stuck at maximum": half of the outcomes (the side
that agrees with the sign of the weight) are at the maximum; in the other half the weight is not stuck, but reflected:
its magnitude becomes the maximum minus what it was - the sign is always kept. -/
theorem C42_gpu_pcm_stuck (f : Fns) (q : PcmPars) (ha : 0 < a) (hg : 0 < gMax) (r : Draws) (i : ℕ) (w : ℚ)
    (h1 : q.probReset ≤ 0) (h2 : 0 < q.probGmax) (h3 : q.probRandom ≤ 0) (ht : q.tInference ≤ 0)
    (hu : r.atGmax i < q.probGmax) (hw : |w| ≤ a) :
    (0 ≤ w → r.side i ≤ 1 / 2 → kPcm f q 0 gMax a r i w = a) ∧
    (0 ≤ w → 1 / 2 < r.side i → kPcm f q 0 gMax a r i w = a - w) ∧
    (w < 0 → 1 / 2 < r.side i → kPcm f q 0 gMax a r i w = -a) ∧
    (w < 0 → r.side i ≤ 1 / 2 → kPcm f q 0 gMax a r i w = -(a + w)) := by
  have hth : threshold q 0 = 0 := by unfold threshold; ring
  obtain ⟨hw1, hw2⟩ := abs_le.1 hw
  have hstart : pcmStart 0 gMax a w = w * gMax / a := by
    unfold pcmStart
    dsimp only
    rw [min_eq_left hw2, max_eq_left hw1]
    by_cases h : |w * gMax / a| > 0
    · rw [if_pos h]
    · rw [if_neg h]; push Not at h; exact (abs_nonpos_iff.1 h).symm
  obtain ⟨h0, v, hv⟩ := kPcm_split f q 0 gMax a r i w
  rw [hth, hstart] at h0 hv
  have hq : 0 < gMax / a := div_pos hg ha
  -- the result for a target `t`
  have key : ∀ t, pcmTarget q gMax r i (w * gMax / a) = t →
      kPcm f q 0 gMax a r i w = keepSign true (w * gMax / a) (t / gMax * a) := by
    intro t e
    rw [e] at h0 hv
    by_cases hz : t = 0
    · rw [h0 hz, hz]
      unfold keepSign
      simp
    · obtain ⟨e1, e2⟩ := hv hz
      have ep : pcmProg 0 gMax (r.prog i) t = t := by unfold pcmProg; dsimp only; ring
      have ed : pcmDrift f (q.tInference + q.t0) q.t0 gMax (r.drift i) t = t := by
        unfold pcmDrift; rw [if_neg (by push Not; linarith)]
      have er : pcmRead f 0 (q.tInference + q.t0) gMax (r.read i) t t = t := by
        unfold pcmRead
        dsimp only
        split_ifs
        · ring
        · rfl
      rw [ep, ed, er] at e2
      rw [e1, e2]
  have tgt : ∀ g, pcmTarget q gMax r i g =
      min (max (if r.side i > 1 / 2 then g - gMax else g + gMax) (-gMax)) gMax := by
    intro g
    unfold pcmTarget pcmReset pcmGmax pcmRandom
    dsimp only
    rw [if_neg (not_lt.2 h1), if_pos h2, if_pos hu, if_neg (not_lt.2 h3)]
  have hwg : w * gMax / a = w * (gMax / a) := by ring
  have ge1 : -gMax ≤ w * gMax / a := by
    rw [le_div_iff₀ ha]; nlinarith
  have ge2 : w * gMax / a ≤ gMax := by
    rw [div_le_iff₀ ha]; nlinarith
  have back : gMax / gMax * a = a := by field_simp
  refine ⟨fun h hside => ?_, fun h hside => ?_, fun h hside => ?_, fun h hside => ?_⟩
  · have hg0 : 0 ≤ w * gMax / a := by rw [hwg]; exact mul_nonneg h hq.le
    rw [key gMax (by rw [tgt, if_neg (not_lt.2 hside), max_eq_left (by linarith), min_eq_right (by linarith)]), back]
    unfold keepSign
    simp only [if_true]
    rw [if_neg (not_lt.2 hg0), abs_of_pos ha]
  · have hg0 : 0 ≤ w * gMax / a := by rw [hwg]; exact mul_nonneg h hq.le
    rw [key (w * gMax / a - gMax) (by
      rw [tgt, if_pos hside, max_eq_left (by linarith), min_eq_left (by linarith)])]
    unfold keepSign
    simp only [if_true]
    rw [if_neg (not_lt.2 hg0)]
    have e : (w * gMax / a - gMax) / gMax * a = -(a - w) := by field_simp; ring
    rw [e, abs_neg, abs_of_nonneg (by linarith)]
  · have hg0 : w * gMax / a < 0 := by rw [hwg]; exact mul_neg_of_neg_of_pos h hq
    rw [key (-gMax) (by
      rw [tgt, if_pos hside, max_eq_right (by linarith), min_eq_left (by linarith)])]
    unfold keepSign
    simp only [if_true]
    rw [if_pos hg0]
    have e : -gMax / gMax * a = -a := by field_simp
    rw [e, abs_neg, abs_of_pos ha]
  · have hg0 : w * gMax / a < 0 := by rw [hwg]; exact mul_neg_of_neg_of_pos h hq
    rw [key (w * gMax / a + gMax) (by
      rw [tgt, if_neg (not_lt.2 hside), max_eq_left (by linarith), min_eq_left (by linarith)])]
    unfold keepSign
    simp only [if_true]
    rw [if_pos hg0]
    have e : (w * gMax / a + gMax) / gMax * a = a + w := by field_simp; ring
    rw [e, abs_of_nonneg (by linarith)]

end Aihw.GpuMod
