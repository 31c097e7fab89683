import Verif.CppFwd.Props

/-!
# C61 (scale, range, backward, average) and C62 (bound management)
-/
open scoped BigOperators

namespace Aihw.CppFwd

variable {K : Type} [Field K] [LinearOrder K] [IsStrictOrderedRing K] [FloorRing K]

set_option linter.unusedSectionVars false

/-! ## Homogeneity -/

theorem npSum_smul {io : IO K} (hth : io.nmThres ≤ 0) (n : Nat) (x : Nat → K) {c : K} (hc : 0 < c) :
    io.npSum n (fun j => c * x j) = c * io.npSum n x := by
  have e1 : ∀ v : K, (if 0 < c * v then c * v else 0) = c * (if 0 < v then v else 0) := by
    intro v
    by_cases h : 0 < v
    · rw [if_pos h, if_pos (mul_pos hc h)]
    · rw [if_neg h, if_neg (not_lt.2 (mul_nonpos_of_nonneg_of_nonpos hc.le (le_of_not_gt h))), mul_zero]
  have e2 : ∀ v : K, (if c * v < 0 then c * v else 0) = c * (if v < 0 then v else 0) := by
    intro v
    by_cases h : v < 0
    · rw [if_pos h, if_pos (mul_neg_of_pos_of_neg hc h)]
    · rw [if_neg h, if_neg (not_lt.2 (mul_nonneg hc.le (le_of_not_gt h))), mul_zero]
  unfold IO.npSum IO.cap
  simp only [e1, e2, if_neg (not_lt.2 hth), amax_smul n x hc.le, ← Finset.mul_sum]
  rw [mul_max_of_nonneg _ _ hc.le]
  have e3 : ∀ p q : K, max (c * p) (-(c * q)) = c * max p (-q) := by
    intro p q; rw [mul_max_of_nonneg _ _ hc.le, mul_neg]
  rw [e3]
  congr 1
  by_cases h : 0 < io.inpRes
  · rw [if_pos h, if_pos h, mul_min_of_nonneg _ _ hc.le]
    congr 1 <;> ring
  · rw [if_neg h, if_neg h]; ring

/-- **C61 (scale).**  With an input-dependent noise management without threshold the pass is positively
homogeneous with all its non-idealities, converters and bound managements: for the same random numbers,
multiplying the input by `c > 0` multiplies the output by `c`. -/
theorem C61_homogeneous {t : Pass K} (hnm : t.f.nm = .absMax ∨ t.f.nm = .absMaxNPSum)
    (hth : t.f.nmThres ≤ 0) (hp : t.f.perfect = false)
    (hs : t.f.mvType = .onePass ∨ t.f.mvType = .posNeg ∨ t.f.mvType = .posNegDigital)
    (sq : K → K) (w : Nat → Nat → K) (al : K) (dr : Nat → Draws K) (x : Nat → K) (aux : K)
    (hx : (∃ j < t.X, x j ≠ 0) ∨ t.f.inpNoise ≤ 0) {c : K} (hc : 0 < c) :
    ∃ y, t.forward sq w al dr x aux = .ok (y, aux) ∧
      t.forward sq w al dr (fun j => c * x j) aux = .ok (fun i => c * y i, aux) := by
  have hperf : t.f.isPerfect = false := by
    unfold IO.isPerfect
    rw [hp]
    rcases hs with e | e | e <;> rw [e] <;> rfl
  have hne : t.f.nm ≠ .none := by rcases hnm with h | h <;> rw [h] <;> decide
  have hcap : ∀ v, t.f.cap v = v := fun v => by unfold IO.cap; rw [if_neg (not_lt.2 hth)]
  obtain ⟨v, hv, hvc, hva⟩ : ∃ v, t.f.computeNM t.X x aux = .ok (v, aux) ∧
      t.f.computeNM t.X (fun j => c * x j) aux = .ok (c * v, aux) ∧ amax t.X x ≤ v := by
    rcases hnm with h | h
    · refine ⟨amax t.X x, ?_, ?_, le_refl _⟩
      · unfold IO.computeNM; rw [h]; simp only; rw [hcap]
      · unfold IO.computeNM; rw [h]; simp only; rw [hcap, amax_smul _ _ hc.le]
    · refine ⟨t.f.npSum t.X x, ?_, ?_, ?_⟩
      · unfold IO.computeNM; rw [h]
      · unfold IO.computeNM; rw [h]; simp only; rw [npSum_smul hth _ _ hc]
      · have := sum_le_npSum t.f t.X x; rwa [hcap] at this
  obtain ⟨F1, F2⟩ := forward_form hperf hs (sq := sq) (w := w) (al := al) (dr := dr) hv
  obtain ⟨G1, G2⟩ := forward_form hperf hs (sq := sq) (w := w) (al := al) (dr := dr) hvc
  by_cases hcut : t.f.nm ≠ .none ∧ v ≤ 0 ∧ t.f.inpNoise ≤ 0
  · refine ⟨_, F1 hcut, ?_⟩
    rw [G1 ⟨hne, mul_nonpos_of_nonneg_of_nonpos hc.le hcut.2.1, hcut.2.2⟩]
    congr 2
    funext i
    rw [mul_zero]
  · have hv0 : 0 < v := by
      rcases hx with ⟨j, hj, hx⟩ | hx
      · exact lt_of_lt_of_le (amax_pos hj hx) hva
      · by_contra h
        exact hcut ⟨hne, le_of_not_gt h, hx⟩
    have hcut' : ¬(t.f.nm ≠ .none ∧ c * v ≤ 0 ∧ t.f.inpNoise ≤ 0) :=
      fun h => absurd h.2.1 (not_le.2 (mul_pos hc hv0))
    obtain ⟨R, i, hR, hi1, hi2, hf⟩ := F2 hcut
    obtain ⟨R', i', hR', hi1', hi2', hf'⟩ := G2 hcut'
    have hn0 : 0 < t.f.npSum t.X x ∨ t.f.nm = .absMaxNPSum := by
      rcases hnm with h | h
      · left
        have h1 := sum_le_npSum t.f t.X x
        rw [hcap] at h1
        unfold IO.computeNM at hv
        rw [h] at hv
        simp only [hcap, Except.ok.injEq, Prod.mk.injEq, and_true] at hv
        rw [hv] at h1
        exact lt_of_lt_of_le hv0 h1
      · exact Or.inr h
    -- the states correspond
    have hst : ∀ k, (t.f.stAt t.X (fun j => c * x j) (c * v) (k + 1)).red =
        (t.f.stAt t.X x v (k + 1)).red ∧ (t.f.stAt t.X (fun j => c * x j) (c * v) (k + 1)).nmv =
        c * (t.f.stAt t.X x v (k + 1)).nmv ∧ 0 < (t.f.stAt t.X x v (k + 1)).nmv := by
      intro k
      rw [stAt_succ, stAt_succ]
      by_cases h : t.f.switches ∧ 1 ≤ k
      · rw [if_pos h, if_pos h]
        refine ⟨rfl, npSum_smul hth _ _ hc, ?_⟩
        rcases hn0 with h0 | h0
        · exact h0
        · exact absurd h0 h.1.2
      · rw [if_neg h, if_neg h]
        exact ⟨rfl, rfl, hv0⟩
    have hscale : ∀ k, t.f.scaleOf (t.f.stAt t.X (fun j => c * x j) (c * v) (k + 1)) =
        t.f.scaleOf (t.f.stAt t.X x v (k + 1)) / c := by
      intro k
      obtain ⟨h1, h2, h3⟩ := hst k
      rw [scaleOf_eq, scaleOf_eq, h1, h2]
      unfold IO.nmDiv
      rw [if_pos (⟨hne, mul_pos hc h3⟩ : t.f.nm ≠ .none ∧ 0 < c * (t.f.stAt t.X x v (k + 1)).nmv),
        if_pos (⟨hne, h3⟩ : t.f.nm ≠ .none ∧ 0 < (t.f.stAt t.X x v (k + 1)).nmv), div_div]
      congr 1; ring
    have hscaling : ∀ k, t.f.scalingOf (t.f.stAt t.X (fun j => c * x j) (c * v) (k + 1)) = true ∧
        t.f.scalingOf (t.f.stAt t.X x v (k + 1)) = true := by
      intro k
      obtain ⟨h1, h2, h3⟩ := hst k
      unfold IO.scalingOf
      rw [h2, decide_eq_true (⟨hne, mul_pos hc h3⟩ : t.f.nm ≠ .none ∧
        0 < c * (t.f.stAt t.X x v (k + 1)).nmv), decide_eq_true (⟨hne, h3⟩ : t.f.nm ≠ .none ∧
        0 < (t.f.stAt t.X x v (k + 1)).nmv)]
      exact ⟨rfl, rfl⟩
    have hRR : ∀ k, R' k = R k := by
      intro k
      have h1 := hR k
      have h2 := hR' k
      unfold IO.roundAt at h1 h2
      rw [(hscaling k).1, hscale] at h2
      rw [(hscaling k).2] at h1
      have e : t.f.analogMV sq t.fm t.X t.D false w (dr k) (t.f.scaleOf (t.f.stAt t.X x v (k + 1)) / c)
          true (fun j => c * x j) = t.f.analogMV sq t.fm t.X t.D false w (dr k)
          (t.f.scaleOf (t.f.stAt t.X x v (k + 1))) true x := by
        have e1 : ∀ u g (z : K), t.f.prepare (t.f.scaleOf (t.f.stAt t.X x v (k + 1)) / c) true u g (c * z) =
            t.f.prepare (t.f.scaleOf (t.f.stAt t.X x v (k + 1))) true u g z := by
          intro u g z
          unfold IO.prepare
          simp only [if_true]
          have : c * z * (t.f.scaleOf (t.f.stAt t.X x v (k + 1)) / c) =
              z * t.f.scaleOf (t.f.stAt t.X x v (k + 1)) := by field_simp
          rw [this]
        unfold IO.analogMV
        simp only [e1]
      rw [e, h1] at h2
      exact (Except.ok.inj h2).symm
    have hii : i' = i := by
      rcases lt_trichotomy i' i with h | h | h
      · obtain ⟨a1, a2, a3⟩ := hi2 i' h
        rw [hRR, (hst i').1] at hi1'
        rcases hi1' with b | b | b
        · exact absurd b a1
        · rw [a2] at b; cases b
        · rw [a3] at b; cases b
      · exact h
      · obtain ⟨a1, a2, a3⟩ := hi2' i h
        rw [hRR] at a2
        rw [(hst i).1] at a3
        rcases hi1 with b | b | b
        · exact absurd b a1
        · rw [a2] at b; cases b
        · rw [a3] at b; cases b
    refine ⟨_, hf, ?_⟩
    rw [hf', hii, hRR]
    congr 2
    funext o
    have := scaleOf_pos t.f (stAt_red_pos t.f t.X x v (i + 1))
    rw [hscale]
    field_simp

/-! ## Range -/

/-- Number of output converter passes that are added. -/
def MV.passes (t : MV) : K := if t = .posNegDigital then 2 else 1

theorem analogMV_range {io : IO K} (hs : io.mvType.supported) {b : K} (hb : 0 ≤ b)
    (hob : io.outBound = some b) {sq : K → K} {p : MVPar K} {n m : Nat} {tr : Bool} {w : Nat → Nat → K}
    {dr : Draws K} {scale : K} {scaling : Bool} {x : Nat → K} {r : (Nat → K) × Bool}
    (hr : io.analogMV sq p n m tr w dr scale scaling x = .ok r) (i : Nat) :
    |r.1 i| ≤ io.mvType.passes * b := by
  unfold IO.analogMV at hr
  rcases hs with e | e | e
  · rw [e] at hr ⊢
    simp only [Except.ok.injEq] at hr
    subst hr
    have e1 : ∀ t : MV, t ≠ .posNegDigital → (t.passes : K) = 1 := fun t h => if_neg h
    unfold IO.finalize
    simp only [hob]
    rw [e1 _ (by decide), one_mul]
    exact abs_clipB_le hb _
  · rw [e] at hr ⊢
    simp only [Except.ok.injEq] at hr
    subst hr
    have e1 : ∀ t : MV, t ≠ .posNegDigital → (t.passes : K) = 1 := fun t h => if_neg h
    unfold IO.finalize
    simp only [hob]
    rw [e1 _ (by decide), one_mul]
    exact abs_clipB_le hb _
  · rw [e] at hr ⊢
    simp only [Except.ok.injEq] at hr
    subst hr
    have e1 : (MV.posNegDigital.passes : K) = 2 := if_pos rfl
    unfold IO.finalize
    simp only [hob]
    rw [e1, two_mul]
    exact le_trans (abs_add_le _ _) (add_le_add (abs_clipB_le hb _) (abs_clipB_le hb _))

theorem limit_false {io : IO K} {r : K} (h : io.limit r = false) : ⌊r⌋ ≤ io.maxBmFactor := by
  unfold IO.limit at h
  rw [Bool.or_eq_false_iff, decide_eq_false_iff_not] at h
  exact le_of_not_gt h.1

/-- The reduction of the last round. -/
theorem red_le {io : IO K} {n : Nat} {x : Nat → K} {v : K} {i : Nat}
    (h : ∀ i' < i, io.limit (io.stAt n x v (i' + 1)).red = false) :
    (io.stAt n x v (i + 1)).red ≤ max 1 (2 * (io.maxBmFactor : K)) := by
  cases i with
  | zero => rw [stAt_succ, if_neg (by omega)]; simp
  | succ i =>
    have h1 := limit_false (h i (by omega))
    rw [stAt_succ] at h1 ⊢
    by_cases hs : io.switches
    · rw [if_pos (⟨hs, by omega⟩ : io.switches ∧ 1 ≤ i + 1)]
      cases i with
      | zero => simp
      | succ i =>
        rw [if_pos (⟨hs, by omega⟩ : io.switches ∧ 1 ≤ i + 1), floor_two_pow] at h1
        apply le_trans _ (le_max_right _ _)
        have h2 : ((2 : K) ^ (i + 1 - 1)) ≤ (io.maxBmFactor : K) := by exact_mod_cast h1
        simp only [Nat.add_sub_cancel] at h2 ⊢
        rw [pow_succ]
        linarith
    · rw [if_neg (fun h => hs h.1), floor_two_pow] at h1
      rw [if_neg (fun h => hs h.1)]
      apply le_trans _ (le_max_right _ _)
      have h2 : ((2 : K) ^ i) ≤ (io.maxBmFactor : K) := by exact_mod_cast h1
      simp only
      rw [pow_succ]
      linarith

/-- **C61 (range).**  With a finite output range `b` no output exceeds `b` (twice that in the digital
two-pass mode) times the noise management value, the largest reduction of the bound management and
`out_scale * alpha`, whatever the weights, inputs, non-idealities and random numbers are. -/
theorem C61_range {t : Pass K} (hp : t.f.perfect = false)
    (hs : t.f.mvType = .onePass ∨ t.f.mvType = .posNeg ∨ t.f.mvType = .posNegDigital)
    {b : K} (hb : 0 ≤ b) (hob : t.f.outBound = some b) (sq : K → K) (w : Nat → Nat → K) (al : K)
    (dr : Nat → Draws K) (x : Nat → K) (aux : K) {y : Nat → K} {aux' v av : K}
    (hv : t.f.computeNM t.X x aux = .ok (v, av))
    (hy : t.forward sq w al dr x aux = .ok (y, aux')) (i : Nat) :
    ∃ u, t.f.nmValue t.X x v u ∧ |y i| ≤ |t.f.outScale * al| * (t.f.mvType.passes * b) * t.f.nmDiv u *
      (if t.f.bm = .none then 1 else max 1 (2 * (t.f.maxBmFactor : K))) := by
  have hperf : t.f.isPerfect = false := by
    unfold IO.isPerfect
    rw [hp]
    rcases hs with e | e | e <;> rw [e] <;> rfl
  have hpass : 0 ≤ (t.f.mvType.passes : K) * b := by
    apply mul_nonneg _ hb
    unfold MV.passes
    split_ifs <;> norm_num
  obtain ⟨F1, F2⟩ := forward_form hperf hs (sq := sq) (w := w) (al := al) (dr := dr) hv
  by_cases hcut : t.f.nm ≠ .none ∧ v ≤ 0 ∧ t.f.inpNoise ≤ 0
  · have := F1 hcut
    rw [hy] at this
    cases this
    refine ⟨v, Or.inl rfl, ?_⟩
    rw [abs_zero]
    apply mul_nonneg (mul_nonneg (mul_nonneg (abs_nonneg _) hpass) (nmDiv_pos _ _).le)
    split_ifs
    · exact zero_le_one
    · exact le_trans zero_le_one (le_max_left _ _)
  · obtain ⟨R, k, hR, -, hmin, hf⟩ := F2 hcut
    rw [hy] at hf
    cases hf
    refine ⟨_, stAt_nmValue t.f t.X x v k, ?_⟩
    have hred : (if t.f.bm ≠ .none then (t.f.stAt t.X x v (k + 1)).red else 1) ≤
        (if t.f.bm = .none then 1 else max 1 (2 * (t.f.maxBmFactor : K))) := by
      by_cases hbm : t.f.bm = .none
      · rw [if_neg (not_not.2 hbm), if_pos hbm]
      · rw [if_pos hbm, if_neg hbm]
        exact red_le fun i' h => (hmin i' h).2.2
    have hRk := hR k
    unfold IO.roundAt at hRk
    have h1 := analogMV_range hs hb hob hRk i
    rw [abs_mul, abs_div, abs_of_pos (scaleOf_pos t.f (stAt_red_pos t.f t.X x v (k + 1))), scaleOf_eq,
      div_div_eq_mul_div, div_one]
    have hN := nmDiv_pos t.f (t.f.stAt t.X x v (k + 1)).nmv
    have hr0 : 0 ≤ (if t.f.bm ≠ .none then (t.f.stAt t.X x v (k + 1)).red else 1) := by
      split_ifs
      · exact (stAt_red_pos t.f t.X x v (k + 1)).le
      · exact zero_le_one
    calc |t.f.outScale * al| * (t.f.nmDiv (t.f.stAt t.X x v (k + 1)).nmv *
          (if t.f.bm ≠ .none then (t.f.stAt t.X x v (k + 1)).red else 1)) * |(R k).1 i|
        ≤ |t.f.outScale * al| * (t.f.nmDiv (t.f.stAt t.X x v (k + 1)).nmv *
          (if t.f.bm = .none then 1 else max 1 (2 * (t.f.maxBmFactor : K)))) *
          (t.f.mvType.passes * b) := by
          apply mul_le_mul _ h1 (abs_nonneg _)
          · apply mul_nonneg (abs_nonneg _) (mul_nonneg hN.le (le_trans hr0 hred))
          · exact mul_le_mul_of_nonneg_left (mul_le_mul_of_nonneg_left hred hN.le) (abs_nonneg _)
      _ = _ := by ring

/-! ## The backward pass -/

/-- The pass in the other direction: the backward parameters without bound management. -/
def Pass.flip (t : Pass K) : Pass K where
  X := t.D
  D := t.X
  f := { t.b with bm := .none }
  b := t.f
  fm := { t.bm with wAsym := fun i j => t.bm.wAsym j i }
  bm := t.fm

/-- **C61 (backward).**  The backward pass is the forward pass of the transposed weights with the backward
parameters and without bound management (also if one is configured); only if the noise management value is
not positive although there is input noise is the output zero instead. -/
theorem C61_backward {t : Pass K} (sq : K → K) (w : Nat → Nat → K) (al : K) (dr : Draws K) (d : Nat → K)
    (aux : K) (hn : t.b.inpNoise ≤ 0 ∨ t.b.nm = .none ∨ ∃ v av, t.b.computeNM t.D d aux = .ok (v, av) ∧ 0 < v) :
    t.backward sq w al dr d aux = t.flip.forward sq (fun i j => w j i) al (fun _ => dr) d aux := by
  unfold Pass.backward Pass.forward
  have e1 : t.flip.f.isPerfect = t.b.isPerfect := rfl
  rw [e1]
  by_cases hp : t.b.isPerfect = true
  · rw [if_pos hp, if_pos hp]; rfl
  rw [if_neg hp, if_neg hp]
  have e2 : ∀ x, t.flip.f.computeNM t.flip.X x aux = t.b.computeNM t.D x aux := fun x => rfl
  simp only
  rw [e2]
  have e3 : ({ t.b with bm := .none } : IO K).computeNM t.D d aux = t.b.computeNM t.D d aux := rfl
  rw [e3]
  cases hv : t.b.computeNM t.D d aux with
  | error e => rfl
  | ok r =>
    obtain ⟨v, av⟩ := r
    simp only
    have hnone : t.b.nm = .none → v = 1 := by
      intro h
      unfold IO.computeNM at hv
      rw [h] at hv
      simp only [Except.ok.injEq, Prod.mk.injEq] at hv
      exact hv.1.symm
    by_cases hcut : t.b.nm ≠ .none ∧ v ≤ 0
    · rw [if_pos hcut, if_pos]
      refine ⟨hcut.1, hcut.2, ?_⟩
      rcases hn with h | h | ⟨v', av', h, h'⟩
      · exact h
      · exact absurd h hcut.1
      · rw [hv] at h; cases h
        exact absurd h' (not_lt.2 hcut.2)
    · rw [if_neg hcut, if_neg (fun h => hcut ⟨h.1, h.2.1⟩)]
      have hf : t.flip.f.fuel = (t.b.maxBmFactor.toNat + 2) + 1 := rfl
      rw [hf]
      unfold IO.bmLoop
      have hnr : t.flip.f.nextRound t.flip.X d ⟨0, v, 1 / 2⟩ = ⟨1, v, 1⟩ := by
        unfold IO.nextRound
        rw [if_neg (by simp)]
        norm_num
      rw [hnr]
      have hscaling : t.flip.f.scalingOf ⟨1, v, 1⟩ = decide (t.b.nm ≠ .none ∧ 0 < v) := by
        unfold IO.scalingOf
        have : decide (t.flip.f.bm ≠ .none) = false := rfl
        rw [this, Bool.or_false]
        rfl
      have hscale : t.flip.f.scaleOf ⟨1, v, 1⟩ = 1 / v := by
        unfold IO.scaleOf
        have h1 : ¬(t.flip.f.bm ≠ .none) := not_not.2 rfl
        have h2 : t.flip.f.nm = t.b.nm := rfl
        simp only
        rw [if_neg h1, h2]
        by_cases h3 : t.b.nm ≠ .none ∧ 0 < v
        · rw [if_pos h3]
        · rw [if_neg h3]
          by_cases h4 : t.b.nm = .none
          · rw [hnone h4, div_one]
          · exact absurd ⟨h4, le_of_not_gt fun h => h3 ⟨h4, h⟩⟩ hcut
      simp only
      rw [hscaling, hscale]
      have hmv : t.flip.f.analogMV sq t.flip.fm t.flip.X t.flip.D false (fun i j => w j i) dr (1 / v)
          (decide (t.b.nm ≠ .none ∧ 0 < v)) d =
          ({ t.b with bm := .none } : IO K).analogMV sq t.bm t.D t.X true w dr (1 / v)
          (decide (t.b.nm ≠ .none ∧ 0 < v)) d := by
        unfold IO.analogMV Pass.flip
        simp only
        by_cases ha : 0 < t.b.wReadAsym
        · simp only [if_pos ha]; rfl
        · simp only [if_neg ha]; rfl
      rw [hmv]
      cases hr : ({ t.b with bm := .none } : IO K).analogMV sq t.bm t.D t.X true w dr (1 / v)
          (decide (t.b.nm ≠ .none ∧ 0 < v)) d with
      | error e => rfl
      | ok r =>
        simp only
        rw [if_pos (Or.inl rfl : t.flip.f.bm = .none ∨ r.2 = true ∨ t.flip.f.limit 1 = true)]
        simp only
        rw [hscaling, hscale]
        have ho : t.flip.f.outScale = t.b.outScale := rfl
        rw [ho]
        have hq : t.b.outScale * al / (1 / v) = t.b.outScale * al * v := by
          rw [div_div_eq_mul_div, div_one]
        rw [hq]

theorem adjoint {X D : Nat} {w : Nat → Nat → K} {x d : Nat → K} {y z : Nat → K} {a b : K}
    (hy : ∀ i < D, y i = a * ∑ j ∈ Finset.range X, w i j * x j)
    (hz : ∀ j < X, z j = b * ∑ i ∈ Finset.range D, w i j * d i) :
    b * ∑ i ∈ Finset.range D, d i * y i = a * ∑ j ∈ Finset.range X, z j * x j := by
  have h1 : ∑ i ∈ Finset.range D, d i * y i =
      a * ∑ i ∈ Finset.range D, ∑ j ∈ Finset.range X, d i * (w i j * x j) := by
    rw [Finset.mul_sum]
    refine Finset.sum_congr rfl fun i hi => ?_
    rw [hy i (Finset.mem_range.1 hi), ← Finset.mul_sum]; ring
  have h2 : ∑ j ∈ Finset.range X, z j * x j =
      b * ∑ j ∈ Finset.range X, ∑ i ∈ Finset.range D, w i j * d i * x j := by
    rw [Finset.mul_sum]
    refine Finset.sum_congr rfl fun j hj => ?_
    rw [hz j (Finset.mem_range.1 hj), ← Finset.sum_mul]; ring
  have h3 : ∑ i ∈ Finset.range D, ∑ j ∈ Finset.range X, d i * (w i j * x j) =
      ∑ j ∈ Finset.range X, ∑ i ∈ Finset.range D, w i j * d i * x j := by
    rw [Finset.sum_comm]
    exact Finset.sum_congr rfl fun j _ => Finset.sum_congr rfl fun i _ => by ring
  rw [h1, h2, h3]; ring

/-- **C61 (gradient).**  With non-idealities off in both directions, the absolute-maximum noise management,
input ranges of at least 1 and unlimited output ranges, the backward pass is the exact adjoint of the
forward pass for all weights, inputs and gradients: up to the two output scales,
`d · forward(x) = backward(d) · x`. -/
theorem C61_adjoint {t : Pass K} (hf : Clean t.f) (hb : Clean t.b) (hnf : t.f.nm = .absMax)
    (hnb : t.b.nm = .absMax) (htf : t.f.nmThres ≤ 0) (htb : t.b.nmThres ≤ 0)
    (hif : ∀ b, t.f.inpBound = some b → 1 ≤ b) (hib : ∀ b, t.b.inpBound = some b → 1 ≤ b)
    (hof : t.f.outBound = none) (hob : t.b.outBound = none) (htest : t.f.bm ≠ .none → t.f.bmTestNeg = true)
    (sq : K → K) (w : Nat → Nat → K) (al : K) (dr : Nat → Draws K) (dr' : Draws K) (x d : Nat → K)
    (aux : K) : ∃ y z, t.forward sq w al dr x aux = .ok (y, aux) ∧
      t.backward sq w al dr' d aux = .ok (z, aux) ∧
      t.b.outScale * al * ∑ i ∈ Finset.range t.D, d i * y i =
        t.f.outScale * al * ∑ j ∈ Finset.range t.X, z j * x j := by
  obtain ⟨y, hy, hy'⟩ := C61_exact_absMax hf hnf htf hif hof htest sq w al dr x aux
  have hc : Clean t.flip.f := ⟨hb.1, hb.2, hb.3, hb.4, hb.5, hb.6, hb.7, hb.8, hb.9, hb.10, hb.11, hb.12,
    hb.13, hb.14, hb.15, hb.16, hb.17⟩
  obtain ⟨z, hz, hz'⟩ := C61_exact_absMax (t := t.flip) hc hnb htb hib hob (fun h => absurd rfl h) sq
    (fun i j => w j i) al (fun _ => dr') d aux
  refine ⟨y, z, hy, ?_, adjoint hy' hz'⟩
  rw [C61_backward sq w al dr' d aux (Or.inl hb.inpNoise), hz]

end Aihw.CppFwd
