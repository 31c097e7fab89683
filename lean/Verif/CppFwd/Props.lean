import Verif.CppFwd.Lemmas

/-!
# C61, C62: exactness, scale, range; bound management of the C++ passes
-/
open scoped BigOperators

namespace Aihw.CppFwd

variable {K : Type} [Field K] [LinearOrder K] [IsStrictOrderedRing K] [FloorRing K]

set_option linter.unusedSectionVars false

/-! ## The general form of a result -/

theorem forward_form {t : Pass K} (hp : t.f.isPerfect = false) (hs : t.f.mvType.supported) {sq : K → K}
    {w : Nat → Nat → K} {al : K} {dr : Nat → Draws K} {x : Nat → K} {aux v aux' : K}
    (hv : t.f.computeNM t.X x aux = .ok (v, aux')) :
    (t.f.nm ≠ .none ∧ v ≤ 0 ∧ t.f.inpNoise ≤ 0 → t.forward sq w al dr x aux = .ok (fun _ => 0, aux')) ∧
    (¬(t.f.nm ≠ .none ∧ v ≤ 0 ∧ t.f.inpNoise ≤ 0) → ∃ (R : Nat → (Nat → K) × Bool) (i : Nat),
      (∀ k, t.f.roundAt sq t.fm t.X t.D w x dr v k = .ok (R k)) ∧
      (t.f.bm = .none ∨ (R i).2 = true ∨ t.f.limit (t.f.stAt t.X x v (i + 1)).red = true) ∧
      (∀ i' < i, t.f.bm ≠ .none ∧ (R i').2 = false ∧
        t.f.limit (t.f.stAt t.X x v (i' + 1)).red = false) ∧
      t.forward sq w al dr x aux = .ok
        (fun o => t.f.outScale * al / t.f.scaleOf (t.f.stAt t.X x v (i + 1)) * (R i).1 o, aux')) := by
  constructor
  · intro h
    unfold Pass.forward
    rw [hp, hv]
    simp only [Bool.false_eq_true, if_false]
    rw [if_pos h]
  · intro h
    have hR : ∀ k, ∃ r, t.f.roundAt sq t.fm t.X t.D w x dr v k = .ok r := fun k => analogMV_ok hs ..
    choose R hR using hR
    obtain ⟨i, h1, h2, h3⟩ := bmLoop_spec R hR
    refine ⟨R, i, hR, h2, h3, ?_⟩
    unfold Pass.forward
    rw [hp, hv]
    simp only [Bool.false_eq_true, if_false]
    rw [if_neg h, h1]
    simp only
    rw [← final_scale t.f (t.f.stAt t.X x v (i + 1)) (t.f.outScale * al) (R i).1]
    split_ifs <;> rfl

/-! ## C61: exactness -/

/-- All converter and circuit non-idealities are switched off; the bounds may be finite. -/
structure Clean (io : IO K) : Prop where
  perfect : io.perfect = false
  mv : io.mvType = .onePass ∨ io.mvType = .posNeg ∨ io.mvType = .posNegDigital
  inpRes : io.inpRes ≤ 0
  inpNoise : io.inpNoise ≤ 0
  inpAsym : io.inpAsym = 0
  outRes : io.outRes ≤ 0
  outNoise : io.outNoise = 0
  outNoiseStd : io.outNoiseStd ≤ 0
  outAsym : io.outAsym ≤ 0
  outNL : io.outNL ≤ 0
  outNLVec : io.outNLVec = []
  irDrop : io.irDrop ≤ 0
  vOffStd : io.vOffStd ≤ 0
  vOffVec : io.vOffVec = []
  rSeries : io.rSeries ≤ 0
  wNoise : io.wNoiseType = .none ∨ io.wNoise ≤ 0
  wReadAsym : io.wReadAsym ≤ 0

theorem Clean.isPerfect {io : IO K} (h : Clean io) : io.isPerfect = false := by
  unfold IO.isPerfect
  rw [h.perfect]
  rcases h.mv with e | e | e <;> rw [e] <;> rfl

theorem Clean.hasVO {io : IO K} (h : Clean io) : io.hasVO = false := by
  unfold IO.hasVO
  rw [h.vOffVec]
  simp [not_lt.2 h.vOffStd, not_lt.2 h.rSeries]

theorem Clean.hasNLCal {io : IO K} (h : Clean io) : io.hasNLCal = false := by
  unfold IO.hasNLCal IO.hasNL
  rw [h.outNLVec]
  simp [not_lt.2 h.outNL, not_lt.2 h.rSeries]

theorem Clean.singlePass {io : IO K} (h : Clean io) (sq : K → K) (p : MVPar K) (n : Nat)
    (m : Nat → Nat → K) (x g : Nat → K) : io.singlePass sq p n m x g = CppFwd.mv n m x := by
  unfold IO.singlePass
  simp only
  rw [if_neg (not_lt.2 h.irDrop), h.hasVO]
  simp only [Bool.false_eq_true, if_false]
  funext i
  unfold IO.weightNoise
  rcases h.wNoise with e | e
  · rw [e]
  · cases io.wNoiseType <;> simp [not_lt.2 e]

theorem Clean.adc {io : IO K} (h : Clean io) (p : MVPar K) (i : Nat) (u g v : K) :
    io.adc p i u g v = v := by
  unfold IO.adc disc
  simp only
  rw [h.hasNLCal, if_neg (not_lt.2 h.outAsym), if_neg (not_lt.2 h.outNoiseStd), h.outNoise,
    if_pos h.outRes]
  simp

theorem Clean.prepare {io : IO K} (h : Clean io) (sc : K) (scl : Bool) (u g v : K) :
    io.prepare sc scl u g v = clipB io.inpBound (if scl then v * sc else v) := by
  unfold IO.prepare disc
  simp only
  rw [if_pos h.inpRes, if_neg (not_lt.2 h.inpNoise), if_neg (not_not.2 h.inpAsym)]

/-- The parts that go through the output converter, as multiples of the input: one sum, or the sums over
the positive and the negative inputs. -/
def MV.parts (t : MV) (n : Nat) (w : Nat → Nat → K) (x : Nat → K) (i : Nat) : List K :=
  if t = .posNegDigital then [∑ j ∈ Finset.range n, w i j * max (x j) 0,
    ∑ j ∈ Finset.range n, w i j * min (x j) 0]
  else [∑ j ∈ Finset.range n, w i j * x j]

theorem pos_scaled {s v : K} (hs : 0 < s) : (if 0 < v * s then v * s else 0) = max v 0 * s := by
  by_cases h : 0 < v
  · rw [if_pos (mul_pos h hs), max_eq_left h.le]
  · rw [if_neg (fun h' => h (by by_contra hc; exact absurd h' (not_lt.2
      (mul_nonpos_of_nonpos_of_nonneg (le_of_not_gt hc) hs.le)))), max_eq_right (le_of_not_gt h), zero_mul]

theorem neg_scaled {s v : K} (hs : 0 < s) : (if v * s < 0 then v * s else 0) = min v 0 * s := by
  by_cases h : v < 0
  · rw [if_pos (mul_neg_of_neg_of_pos h hs), min_eq_left h.le]
  · rw [if_neg (not_lt.2 (mul_nonneg (le_of_not_gt h) hs.le)), min_eq_right (le_of_not_gt h), zero_mul]

/-- One clean round: each output is the sum of the clipped scaled parts; a passed test means that no part
was clipped. -/
theorem Clean.round {io : IO K} (h : Clean io) (sq : K → K) (p : MVPar K) (n m : Nat)
    (w : Nat → Nat → K) (dr : Draws K) (s : LoopSt K) (hs : 0 < s.red) (x : Nat → K)
    (hin : ∀ j < n, ∀ b, io.inpBound = some b → |x j * io.scaleOf s| ≤ b) {r : (Nat → K) × Bool}
    (hr : io.analogMV sq p n m false w dr (io.scaleOf s) (io.scalingOf s) x = .ok r) :
    (∀ i, (∀ q ∈ io.mvType.parts n w x i, ∀ b, io.outBound = some b → |q * io.scaleOf s| ≤ b) →
      r.1 i = (∑ j ∈ Finset.range n, w i j * x j) * io.scaleOf s) ∧
    (io.bm ≠ .none → io.bmTestNeg = true → r.2 = true → ∀ i < m, ∀ q ∈ io.mvType.parts n w x i, ∀ b,
      io.outBound = some b → |q * io.scaleOf s| ≤ b) := by
  have hsc := scaleOf_pos io hs
  have hxin : ∀ j < n, io.prepare (io.scaleOf s) (io.scalingOf s) (dr.inU j) (dr.inG j) (x j) =
      x j * io.scaleOf s := by
    intro j hj
    rw [h.prepare, scaled_eq]
    exact clipB_of_le (hin j hj)
  have hfin : ∀ (b : Bool) (y : Nat → K), io.finalize p m dr b y =
      (fun i => clipB io.outBound (y i), io.boundTest m y) := by
    intro b y
    unfold IO.finalize
    simp only [h.adc]
  unfold IO.analogMV at hr
  rw [if_neg (not_lt.2 h.wReadAsym)] at hr
  have hpos : ∀ i, CppFwd.mv n (eff false w) (fun j => if 0 < io.prepare (io.scaleOf s) (io.scalingOf s)
      (dr.inU j) (dr.inG j) (x j) then io.prepare (io.scaleOf s) (io.scalingOf s) (dr.inU j) (dr.inG j)
      (x j) else 0) i = (∑ j ∈ Finset.range n, w i j * max (x j) 0) * io.scaleOf s := by
    intro i
    rw [mv_congr (m := eff false w) (m' := w) (y := fun j => max (x j) 0 * io.scaleOf s) (fun _ _ => rfl)
      (fun j hj => by rw [hxin j hj, pos_scaled hsc]), mv_smul]
    rfl
  have hneg : ∀ i, CppFwd.mv n (eff false w) (fun j => if io.prepare (io.scaleOf s) (io.scalingOf s)
      (dr.inU j) (dr.inG j) (x j) < 0 then io.prepare (io.scaleOf s) (io.scalingOf s) (dr.inU j)
      (dr.inG j) (x j) else 0) i = (∑ j ∈ Finset.range n, w i j * min (x j) 0) * io.scaleOf s := by
    intro i
    rw [mv_congr (m := eff false w) (m' := w) (y := fun j => min (x j) 0 * io.scaleOf s) (fun _ _ => rfl)
      (fun j hj => by rw [hxin j hj, neg_scaled hsc]), mv_smul]
    rfl
  have hsum : ∀ i, (∑ j ∈ Finset.range n, w i j * max (x j) 0) * io.scaleOf s +
      (∑ j ∈ Finset.range n, w i j * min (x j) 0) * io.scaleOf s =
      (∑ j ∈ Finset.range n, w i j * x j) * io.scaleOf s := by
    intro i
    rw [← add_mul, ← Finset.sum_add_distrib]
    congr 1
    apply Finset.sum_congr rfl
    intro j _
    rw [← mul_add, max_add_min, add_zero]
  rcases h.mv with e | e | e
  · rw [e] at hr ⊢
    simp only [Except.ok.injEq] at hr
    rw [hfin, h.singlePass] at hr
    have hy : ∀ i, CppFwd.mv n (eff false w) (fun j => io.prepare (io.scaleOf s) (io.scalingOf s)
        (dr.inU j) (dr.inG j) (x j)) i = (∑ j ∈ Finset.range n, w i j * x j) * io.scaleOf s := by
      intro i
      rw [mv_congr (m := eff false w) (m' := w) (y := fun j => x j * io.scaleOf s) (fun _ _ => rfl) hxin, mv_smul]
      rfl
    have hq : ∀ i, MV.parts .onePass n w x i = [∑ j ∈ Finset.range n, w i j * x j] := fun i => rfl
    subst hr
    constructor
    · intro i hi
      rw [hq] at hi
      simp only
      rw [hy, clipB_of_le (hi _ (List.mem_singleton.2 rfl))]
    · intro hb ht h2 i hi q hq'
      rw [hq, List.mem_singleton] at hq'
      subst hq'
      have := (boundTest_iff hb ht m _).1 h2 i hi
      rw [hy] at this
      exact this
  · rw [e] at hr ⊢
    simp only [Except.ok.injEq] at hr
    rw [hfin, h.singlePass, h.singlePass] at hr
    have hq : ∀ i, MV.parts .posNeg n w x i = [∑ j ∈ Finset.range n, w i j * x j] := fun i => rfl
    subst hr
    constructor
    · intro i hi
      rw [hq] at hi
      simp only
      rw [hpos, hneg, hsum, clipB_of_le (hi _ (List.mem_singleton.2 rfl))]
    · intro hb ht h2 i hi q hq'
      rw [hq, List.mem_singleton] at hq'
      subst hq'
      have := (boundTest_iff hb ht m _).1 h2 i hi
      rw [hpos, hneg, hsum] at this
      exact this
  · rw [e] at hr ⊢
    simp only [Except.ok.injEq] at hr
    rw [hfin, hfin, h.singlePass, h.singlePass] at hr
    have hq : ∀ i, MV.parts .posNegDigital n w x i = [∑ j ∈ Finset.range n, w i j * max (x j) 0,
      ∑ j ∈ Finset.range n, w i j * min (x j) 0] := fun i => rfl
    subst hr
    constructor
    · intro i hi
      rw [hq] at hi
      simp only
      rw [hpos, hneg, clipB_of_le (hi _ (List.mem_cons_self ..)),
        clipB_of_le (hi _ (List.mem_cons_of_mem _ (List.mem_cons_self ..))), hsum]
    · intro hb ht h2 i hi q hq'
      simp only [Bool.and_eq_true] at h2
      rw [hq] at hq'
      rcases List.mem_cons.1 hq' with rfl | hq'
      · have := (boundTest_iff hb ht m _).1 h2.1 i hi
        rw [hpos] at this
        exact this
      · rw [List.mem_singleton] at hq'
        subst hq'
        have := (boundTest_iff hb ht m _).1 h2.2 i hi
        rw [hneg] at this
        exact this

/-- The values by which the noise management may divide the inputs: the value computed for the input and,
in the worst-case mode, the one computed from the sums of the positive and negative inputs. -/
def IO.nmValue (io : IO K) (n : Nat) (x : Nat → K) (v u : K) : Prop :=
  u = v ∨ (io.bm = .worstCase ∧ io.nm ≠ .absMaxNPSum ∧ u = io.npSum n x)

theorem stAt_nmValue (io : IO K) (n : Nat) (x : Nat → K) (v : K) (k : Nat) :
    io.nmValue n x v (io.stAt n x v (k + 1)).nmv := by
  rw [stAt_succ]
  split_ifs with h
  · exact Or.inr ⟨h.1.1, h.1.2, rfl⟩
  · exact Or.inl rfl

theorem stAt_red_ge_one (io : IO K) (n : Nat) (x : Nat → K) (v : K) (k : Nat) :
    1 ≤ (io.stAt n x v (k + 1)).red := by
  rw [stAt_succ]
  split_ifs
  · exact one_le_pow₀ (by norm_num)
  · exact one_le_pow₀ (by norm_num)

/-- **C61 (exactness).**  With all non-idealities off, for every noise and bound management and every mode:
if the inputs fit the input range after the division by the noise management value, and the outputs (the
positive and the negative part separately in the digital mode) fit the output range after the largest
reduction that the bound management may use, the forward pass returns `out_scale * alpha` times the exact
product. -/
theorem C61_exact {t : Pass K} (hc : Clean t.f) (sq : K → K) (w : Nat → Nat → K) (al : K)
    (dr : Nat → Draws K) (x : Nat → K) {aux v aux' : K}
    (hv : t.f.computeNM t.X x aux = .ok (v, aux'))
    (hz : t.f.nm ≠ .none → v ≤ 0 → ∀ j < t.X, x j = 0)
    (htest : t.f.bm ≠ .none → t.f.bmTestNeg = true)
    (hin : ∀ u, t.f.nmValue t.X x v u → ∀ b, t.f.inpBound = some b → ∀ j < t.X,
      |x j| ≤ b * t.f.nmDiv u)
    (hout : ∀ u, t.f.nmValue t.X x v u → ∀ b, t.f.outBound = some b → ∀ i < t.D,
      ∀ q ∈ t.f.mvType.parts t.X w x i,
        |q| ≤ b * t.f.nmDiv u * (if t.f.bm = .none then 1 else max 1 (t.f.maxBmFactor : K))) :
    ∃ y, t.forward sq w al dr x aux = .ok (y, aux') ∧
      ∀ i < t.D, y i = t.f.outScale * al * ∑ j ∈ Finset.range t.X, w i j * x j := by
  obtain ⟨F1, F2⟩ := forward_form hc.isPerfect hc.mv (sq := sq) (w := w) (al := al) (dr := dr) hv
  by_cases hcut : t.f.nm ≠ .none ∧ v ≤ 0 ∧ t.f.inpNoise ≤ 0
  · refine ⟨_, F1 hcut, fun i _ => ?_⟩
    rw [Finset.sum_eq_zero, mul_zero]
    intro j hj
    rw [hz hcut.1 hcut.2.1 j (Finset.mem_range.1 hj), mul_zero]
  · obtain ⟨R, k, hR, hstop, -, hf⟩ := F2 hcut
    refine ⟨_, hf, fun i hi => ?_⟩
    have hred := stAt_red_ge_one t.f t.X x v k
    have hred0 : 0 < (t.f.stAt t.X x v (k + 1)).red := lt_of_lt_of_le one_pos hred
    have hval := stAt_nmValue t.f t.X x v k
    generalize hst : t.f.stAt t.X x v (k + 1) = s at *
    have hsc := scaleOf_pos t.f hred0
    have hN := nmDiv_pos t.f s.nmv
    have hRk := hR k
    unfold IO.roundAt at hRk
    rw [hst] at hRk
    -- scaling by a divisor that is at least the noise management value
    have hdiv : ∀ q c : K, |q| ≤ c * t.f.nmDiv s.nmv * (if t.f.bm = .none then 1 else s.red) →
        |q * t.f.scaleOf s| ≤ c := by
      intro q c hq
      rw [abs_mul, abs_of_pos hsc, scaleOf_eq, mul_one_div]
      have e : (if t.f.bm ≠ .none then s.red else 1) = (if t.f.bm = .none then 1 else s.red) := by
        by_cases hb : t.f.bm = .none <;> simp [hb]
      rw [e]
      have hpos : 0 < t.f.nmDiv s.nmv * (if t.f.bm = .none then 1 else s.red) := by
        apply mul_pos hN
        split_ifs
        · exact one_pos
        · exact hred0
      rw [div_le_iff₀ hpos]
      calc |q| ≤ _ := hq
        _ = _ := by ring
    have hin' : ∀ j < t.X, ∀ b, t.f.inpBound = some b → |x j * t.f.scaleOf s| ≤ b := by
      intro j hj b hb
      apply hdiv
      have h1 := hin _ hval b hb j hj
      refine le_trans h1 ?_
      have hb0 : 0 ≤ b * t.f.nmDiv s.nmv := le_trans (abs_nonneg _) h1
      split_ifs
      · rw [mul_one]
      · exact le_mul_of_one_le_right hb0 hred
    obtain ⟨C1, C2⟩ := hc.round sq t.fm t.X t.D w (dr k) s hred0 x hin' hRk
    have hfit : ∀ q ∈ t.f.mvType.parts t.X w x i, ∀ b, t.f.outBound = some b →
        |q * t.f.scaleOf s| ≤ b := by
      intro q hq b hb
      by_cases hbm : t.f.bm = .none
      · have h1 := hout _ hval b hb i hi q hq
        apply hdiv
        rw [if_pos hbm] at h1 ⊢
        exact h1
      · by_cases htp : (R k).2 = true
        · exact C2 hbm (htest hbm) htp i hi q hq b hb
        · have hlim : t.f.limit s.red = true := by
            rcases hstop with h | h | h
            · exact absurd h hbm
            · exact absurd h htp
            · exact h
          have h1 := hout _ hval b hb i hi q hq
          rw [if_neg hbm] at h1
          apply hdiv
          rw [if_neg hbm]
          refine le_trans h1 ?_
          have hpos : 0 < max 1 (t.f.maxBmFactor : K) := lt_of_lt_of_le one_pos (le_max_left _ _)
          have hb0 : 0 ≤ b * t.f.nmDiv s.nmv := by
            by_contra hneg
            have := mul_neg_of_neg_of_pos (lt_of_not_ge hneg) hpos
            exact absurd (le_trans (abs_nonneg q) h1) (not_le.2 this)
          apply mul_le_mul_of_nonneg_left _ hb0
          apply max_le hred
          unfold IO.limit at hlim
          rw [Bool.or_eq_true, Bool.and_eq_true, decide_eq_true_eq, decide_eq_true_eq] at hlim
          rcases hlim with hl | hl
          · have h2 : (t.f.maxBmFactor : K) ≤ ((⌊s.red⌋ : ℤ) : K) := by exact_mod_cast hl.le
            exact le_trans h2 (Int.floor_le _)
          · exact absurd hl.1 (not_lt.2 hc.inpRes)
    rw [C1 i hfit]
    field_simp

theorem sum_le_npSum (io : IO K) (n : Nat) (x : Nat → K) : io.cap (amax n x) ≤ io.npSum n x := by
  unfold IO.npSum
  exact le_max_left _ _

/-- **C61 (default noise management).**  With the absolute-maximum noise management without a threshold,
an input range of at least 1 and an unlimited output range, the clean forward pass is exact for every
input, every weight matrix and every bound management. -/
theorem C61_exact_absMax {t : Pass K} (hc : Clean t.f) (hnm : t.f.nm = .absMax) (hth : t.f.nmThres ≤ 0)
    (hb : ∀ b, t.f.inpBound = some b → 1 ≤ b) (ho : t.f.outBound = none)
    (htest : t.f.bm ≠ .none → t.f.bmTestNeg = true) (sq : K → K) (w : Nat → Nat → K)
    (al : K) (dr : Nat → Draws K) (x : Nat → K) (aux : K) :
    ∃ y, t.forward sq w al dr x aux = .ok (y, aux) ∧
      ∀ i < t.D, y i = t.f.outScale * al * ∑ j ∈ Finset.range t.X, w i j * x j := by
  obtain ⟨g0, g1, g2⟩ := amax_spec t.X x
  have hcap : t.f.cap (amax t.X x) = amax t.X x := by unfold IO.cap; rw [if_neg (not_lt.2 hth)]
  have hv : t.f.computeNM t.X x aux = .ok (amax t.X x, aux) := by
    unfold IO.computeNM; rw [hnm]; simp only; rw [hcap]
  have hz : amax t.X x ≤ 0 → ∀ j < t.X, x j = 0 := by
    intro h j hj
    have := le_trans (g1 j hj) h
    exact abs_eq_zero.1 (le_antisymm this (abs_nonneg _))
  refine C61_exact hc sq w al dr x hv (fun _ h => hz h) htest ?_ ?_
  · intro u hu b hbb j hj
    have h1 : amax t.X x ≤ u := by
      rcases hu with rfl | ⟨-, -, rfl⟩
      · exact le_refl _
      · rw [← hcap]; exact sum_le_npSum ..
    unfold IO.nmDiv
    by_cases hu0 : 0 < u
    · rw [if_pos ⟨by rw [hnm]; decide, hu0⟩]
      calc |x j| ≤ u := le_trans (g1 j hj) h1
        _ ≤ b * u := le_mul_of_one_le_left hu0.le (hb b hbb)
    · rw [if_neg (fun h => hu0 h.2), hz (le_trans h1 (le_of_not_gt hu0)) j hj, abs_zero, mul_one]
      exact le_trans zero_le_one (hb b hbb)
  · intro u _ b hbb
    rw [ho] at hbb
    cases hbb

/-- **C61 (perfect).**  Perfect passes are exact, whatever the other parameters are. -/
theorem C61_perfect {t : Pass K} (sq : K → K) (w : Nat → Nat → K) (al : K)
    (dr : Nat → Draws K) (x d : Nat → K) (aux : K) :
    (t.f.perfect = true ∨ t.f.mvType = .ideal → t.forward sq w al dr x aux =
      .ok (fun i => t.f.outScale * al * ∑ j ∈ Finset.range t.X, w i j * x j, aux)) ∧
    (t.b.perfect = true ∨ t.b.mvType = .ideal → t.backward sq w al (dr 0) d aux =
      .ok (fun j => t.b.outScale * al * ∑ i ∈ Finset.range t.D, w i j * d i, aux)) := by
  constructor
  · intro h
    have hp : t.f.isPerfect = true := by
      unfold IO.isPerfect
      rcases h with h | h <;> simp [h]
    unfold Pass.forward
    rw [if_pos hp]
    rfl
  · intro h
    have hp : t.b.isPerfect = true := by
      unfold IO.isPerfect
      rcases h with h | h <;> simp [h]
    unfold Pass.backward
    rw [if_pos hp]
    rfl

/-! ## C61: noise management values -/

/-- **C61 (value of the noise management).**  The largest absolute input, the largest input, a constant,
or an exponential average; the threshold limits the first two. -/
theorem C61_nm_value (io : IO K) {n : Nat} (hn : 0 < n) (x : Nat → K) (aux : K) :
    ∃ a, (∀ i < n, |x i| ≤ a) ∧ (∃ i < n, |x i| = a) ∧
    (io.nm = .none → io.computeNM n x aux = .ok (1, aux)) ∧
    (io.nm = .constant → io.computeNM n x aux = .ok (if 0 < io.nmThres then io.nmThres else 1, aux)) ∧
    (io.nm = .absMax → io.computeNM n x aux =
      .ok (if 0 < io.nmThres then min a io.nmThres else a, aux)) ∧
    (io.nm = .max → ∃ m, (∀ i < n, x i ≤ m) ∧ (∃ i < n, x i = m) ∧ io.computeNM n x aux =
      .ok (if 0 < io.nmThres then min m io.nmThres else m, aux)) ∧
    (io.nm = .average ∨ io.nm = .averageSingle → ∃ v, io.computeNM n x aux = .ok (v, v) ∧
      (aux < 0 → v = a) ∧ (0 ≤ aux → v = (1 - io.nmDecay) * aux + io.nmDecay * a)) ∧
    (io.nm = .absMaxSingle → io.computeNM n x aux = .error .runtimeError) := by
  obtain ⟨g0, g1, g2⟩ := amax_spec n x
  refine ⟨amax n x, g1, ?_, ?_, ?_, ?_, ?_, ?_, ?_⟩
  · rcases g2 with h | ⟨i, hi, h⟩
    · refine ⟨0, hn, ?_⟩
      have := g1 0 hn
      rw [h] at this ⊢
      exact le_antisymm this (abs_nonneg _)
    · exact ⟨i, hi, h.symm⟩
  · intro h; unfold IO.computeNM; rw [h]
  · intro h; unfold IO.computeNM; rw [h]
  · intro h; unfold IO.computeNM; rw [h]; rfl
  · intro h
    obtain ⟨h1, i, hi, h2⟩ := vmax_spec hn x
    refine ⟨vmax n x, h1, ⟨i, hi, h2.symm⟩, ?_⟩
    unfold IO.computeNM; rw [h]; rfl
  · intro h
    refine ⟨if aux < 0 then amax n x else aux * (1 - io.nmDecay) + io.nmDecay * amax n x, ?_, ?_, ?_⟩
    · unfold IO.computeNM
      rcases h with h | h <;> rw [h]
    · intro ha; rw [if_pos ha]
    · intro ha; rw [if_neg (not_lt.2 ha)]; ring
  · intro h; unfold IO.computeNM; rw [h]

/-- **C61 (positive and negative sums).**  The value of `AbsMaxNPSum`, which the worst-case bound
management uses as well: the largest absolute input, or, if larger, the larger one of the sums of the
positive and of the negative inputs times `w_max / out_bound`, of which the latter is limited by
`max_bm_res / inp_res` times the former. -/
theorem C61_npSum (io : IO K) (n : Nat) (x : Nat → K) (aux : K) (hnm : io.nm = .absMaxNPSum) {b : K}
    (hb : io.outBound = some b) (hth : io.nmThres ≤ 0) {v aux' : K}
    (hv : io.computeNM n x aux = .ok (v, aux')) :
    ∀ a, IsGreatest {r | r = 0 ∨ ∃ i < n, r = |x i|} a → aux' = aux ∧
      (io.inpRes ≤ 0 → v = max a (max (∑ j ∈ Finset.range n, max (x j) 0)
        (∑ j ∈ Finset.range n, max (-x j) 0) * io.nmWmax / b)) ∧
      (0 < io.inpRes → v = max a (min (a / io.inpRes * io.maxBmRes)
        (max (∑ j ∈ Finset.range n, max (x j) 0) (∑ j ∈ Finset.range n, max (-x j) 0) *
          io.nmWmax / b))) := by
  intro a ha
  have hamax : amax n x = a := by
    apply amax_unique
    · exact ha.2 (Or.inl rfl)
    · intro i hi; exact ha.2 (Or.inr ⟨i, hi, rfl⟩)
    · exact ha.1
  have hp : (∑ j ∈ Finset.range n, if 0 < x j then x j else 0) = ∑ j ∈ Finset.range n, max (x j) 0 := by
    apply Finset.sum_congr rfl
    intro j _
    by_cases h : 0 < x j
    · rw [if_pos h, max_eq_left h.le]
    · rw [if_neg h, max_eq_right (le_of_not_gt h)]
  have hn : -(∑ j ∈ Finset.range n, if x j < 0 then x j else 0) =
      ∑ j ∈ Finset.range n, max (-x j) 0 := by
    rw [← Finset.sum_neg_distrib]
    apply Finset.sum_congr rfl
    intro j _
    by_cases h : x j < 0
    · rw [if_pos h, max_eq_left (by linarith)]
    · rw [if_neg h, max_eq_right (by linarith [le_of_not_gt h]), neg_zero]
  unfold IO.computeNM at hv
  rw [hnm] at hv
  simp only [Except.ok.injEq, Prod.mk.injEq] at hv
  obtain ⟨rfl, rfl⟩ := hv
  refine ⟨rfl, ?_, ?_⟩
  · intro hr
    unfold IO.npSum IO.cap
    simp only
    rw [if_neg (not_lt.2 hth), if_neg (not_lt.2 hr), hp, hn, hamax, hb]
    rfl
  · intro hr
    unfold IO.npSum IO.cap
    simp only
    rw [if_neg (not_lt.2 hth), if_pos hr, hp, hn, hamax, hb]
    rfl

end Aihw.CppFwd
