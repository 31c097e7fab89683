import Verif.Pulsed.BufferedExamples
import Verif.Pulsed.MixedPrecProps2

/-!
# Concrete cases for the mixed-precision compound (C59)
-/
namespace Aihw.Pulsed.Ex

/-- Two by two, four bins each (levels `-1, -1/2, 0, 1/2, 1` of the maximum), granularity `1/8`, one
row transferred every two updates. -/
def mp : MPar ℚ :=
  { xSize := 2, dSize := 2, nxBins := 4, ndBins := 4, stoX := false, stoD := false, gran := 1/8,
    every := 2, nRows := 1, randomRow := false, transferLr := 1, sparsity := true }

def ms : MS ℚ :=
  { chi := fun _ _ => 0, row := 0, idx := 0, avg := 0, qd := fun _ => 0,
    dev := Dev.create .constant p0 2 2 (fun _ => c0) (fun _ => 0) (fun _ => 0) }

/-- Input `(1, -1/5)` (quantised: `(1, 0)`), error `(3/4, 1/3)` (quantised: `(3/4, 3/8)`). -/
def mu : MU ℚ :=
  { lr := 1/10, x := fun i => if i = 0 then 1 else -1/5, d := fun j => if j = 0 then 3/4 else 1/3,
    mBatch := 1, ux := fun _ => 1/2, ud := fun _ => 1/2, ur := 0, w := fun _ => wd }

def mpView (r : Except PyErr (MS ℚ × List (List (MT ℚ)))) :
    Option (List ℚ × List (Nat × ℚ × ℚ) × List ℚ × Nat × ℚ) :=
  match r with
  | .ok (s, l) => some ([s.chi 0 0, s.chi 0 1, s.chi 1 0, s.chi 1 1],
      l.flatten.map (fun t => (t.row, t.dw 0, t.dw 1)),
      [s.dev.weight 0, s.dev.weight 1, s.dev.weight 2, s.dev.weight 3], s.row, s.avg)
  | .error _ => none

/-- Two updates only accumulate `lr * q(d) q(x)`. -/
example : mpView (mp.run F ms [mu, mu]) =
    some ([3/20, 0, 3/40, 0], [], [0, 0, 0, 0], 0, 0) := by decide +kernel

/-- The third one transfers row 0: `9/40` is one step of `1/8` and a rest of `1/10`; the weight goes
down by one step. -/
example : mpView (mp.run F ms [mu, mu, mu]) =
    some ([1/10, 0, 9/80, 0], [(0, 1, 0)], [-1/8, 0, 0, 0], 1, 0) := by decide +kernel

/-- The fifth one transfers row 1, the seventh row 0 again. -/
example : mpView (mp.run F ms [mu, mu, mu, mu, mu, mu, mu]) =
    some ([1/40, 0, 11/80, 0], [(0, 1, 0), (1, 1, 0), (0, 3, 0)], [-1/4, 0, -1/8, 0], 1, 0) := by
  decide +kernel

example : mu.Unit := by
  refine ⟨fun _ => by norm_num [mu], fun _ => by norm_num [mu], by norm_num [mu], fun _ => ⟨⟨fun _ => ?_,
    fun _ _ => ?_⟩, ⟨fun _ => ?_, fun _ _ => ?_⟩⟩⟩ <;> norm_num [mu, wd, t1]

example : mp.Uniform ∧ ms.row < mp.dSize ∧ mp.every * mu.mBatch = 2 ∧ mp.Fires 2 mu.mBatch ∧
    ¬ mp.Fires 0 mu.mBatch ∧ ¬ mp.Fires 3 mu.mBatch ∧ mp.rowsPer = 1 ∧ mp.nRows ≠ 0 ∧
    mp.transferLr ≠ 0 := by
  refine ⟨?_, by decide, rfl, ⟨by decide, by decide, by decide, by decide, ?_⟩, ?_, ?_, by decide,
    by decide, ?_⟩
  · unfold MPar.Uniform; decide
  · norm_num [mp]
  · rintro ⟨-, h, -⟩; exact absurd h (by decide)
  · rintro ⟨-, -, h, -⟩; exact absurd h (by decide)
  · norm_num [mp]

/-- Quantisation of this update, as specified. -/
example : mp.Contribution mu (fun i => if i = 0 then 1 else 0)
    (fun j => if j = 0 then 3/4 else 3/8) := by
  obtain ⟨a, ha⟩ : ∃ a, mp.accumulate ms mu = .ok a := ⟨_, rfl⟩
  refine ⟨1, 3/4, ?_, ?_, ?_, ?_⟩
  · refine ⟨by norm_num, fun j hj => ?_, Or.inr ⟨0, by decide, by norm_num [mu]⟩⟩
    simp only [mu]; split_ifs <;> norm_num [abs_div]
  · refine ⟨by norm_num, fun j hj => ?_, Or.inr ⟨0, by decide, by norm_num [mu, abs_div]⟩⟩
    simp only [mu]; split_ifs <;> norm_num [abs_div]
  · intro i hi
    refine ⟨fun h => absurd h (by decide), fun _ => ⟨if i = 0 then 2 else 0, ?_, ?_, ?_⟩⟩
    · split_ifs <;> decide
    · have hi : i = 0 ∨ i = 1 := by have : i < 2 := hi; omega
      rcases hi with rfl | rfl <;> norm_num [mp]
    · intro m hm
      have hm : m = -2 ∨ m = -1 ∨ m = 0 ∨ m = 1 ∨ m = 2 := by
        have := abs_le.1 (show |m| ≤ 2 from hm); omega
      have hi : i = 0 ∨ i = 1 := by have : i < 2 := hi; omega
      rcases hi with rfl | rfl <;> rcases hm with rfl | rfl | rfl | rfl | rfl <;> decide +kernel
  · intro i hi
    refine ⟨fun h => absurd h (by decide), fun _ => ⟨if i = 0 then 2 else 1, ?_, ?_, ?_⟩⟩
    · split_ifs <;> decide
    · have hi : i = 0 ∨ i = 1 := by have : i < 2 := hi; omega
      rcases hi with rfl | rfl <;> norm_num [mp]
    · intro m hm
      have hm : m = -2 ∨ m = -1 ∨ m = 0 ∨ m = 1 ∨ m = 2 := by
        have := abs_le.1 (show |m| ≤ 2 from hm); omega
      have hi : i = 0 ∨ i = 1 := by have : i < 2 := hi; omega
      rcases hi with rfl | rfl <;> rcases hm with rfl | rfl | rfl | rfl | rfl <;> decide +kernel

/-- The theorem on the accumulator on three updates. -/
example : ∀ r, mp.run F ms [mu, mu, mu] = .ok r → ∃ qs : List ((Nat → ℚ) × (Nat → ℚ)),
    qs.length = 3 ∧ r.1.chi 0 0 + 1/8 * taken r.2.flatten 0 0 =
      (([mu, mu, mu].zip qs).map fun z => z.1.lr * z.2.2 0 * z.2.1 0).sum := by
  intro r h
  have hu : ∀ u ∈ [mu, mu, mu], u.Unit := by
    intro u hu
    have : u = mu := by simpa using hu
    subst this
    refine ⟨fun _ => by norm_num [mu], fun _ => by norm_num [mu], by norm_num [mu],
      fun _ => ⟨⟨fun _ => ?_, fun _ _ => ?_⟩, ⟨fun _ => ?_, fun _ _ => ?_⟩⟩⟩ <;> norm_num [mu, wd, t1]
  obtain ⟨qs, hF, hc⟩ := C59_conserve F mp (by unfold MPar.Uniform; decide) ms (by decide) _ hu r h
  refine ⟨qs, hF.length_eq.symm, ?_⟩
  have := hc 0 (by decide) 0 (by decide)
  rw [show ms.chi 0 0 = 0 from rfl, zero_add] at this
  exact this

/-- Sparsity: input `(1, 0)` and error `(3/4, 3/8)`: no cell has two zero factors, although half of the
cells get no gradient. -/
example : (match mp.run F ms [mu] with | .ok r => mp.avgSparsity r.1 | .error _ => 7) = 0 ∧
    (match mp.run F ms [{ mu with d := fun j => if j = 0 then 3/4 else 0 }] with
      | .ok r => mp.avgSparsity r.1 | .error _ => 7) = 1/4 := by decide +kernel

/-- One quantised vector: only row `x_size - 1 = 1` gets gradient, with the last error `1/3`. -/
example : mpView (({ mp with ndBins := 0 } : MPar ℚ).init.run F ms [mu]) =
    some ([0, 0, 1/30, 0], [], [0, 0, 0, 0], 0, 0) := by decide +kernel

/-- One quantised vector and more columns than rows, one bin: no update. -/
example : mpView ({ mp with ndBins := 0, xSize := 3 }.run F ms [mu]) = none ∧
    mpView ({ mp with ndBins := 1 }.run F ms [mu]) = none := by decide +kernel

/-- Both unquantised. -/
example : mpView (({ mp with ndBins := 0, nxBins := 0 } : MPar ℚ).init.run F ms [mu]) =
    some ([3/40, -3/200, 1/30, -1/150], [], [0, 0, 0, 0], 0, 0) := by decide +kernel

/-- Setting weights. -/
example : (match mp.run F ms [mu, mu, mu] with
    | .ok r => [(mp.setWeights r.1 (fun _ => 3) (fun _ => 0)).dev.weight 0,
        (mp.setWeights r.1 (fun _ => 3) (fun _ => 0)).chi 1 0]
    | .error _ => []) = [1/2, 0] := by decide +kernel

/-- Granularity: unknown for an ideal device, overridden by the parameter. -/
example : (mpGranularity (none : Option ℚ) 0 matches .error _) ∧
    (mpGranularity (none : Option ℚ) (1/4) matches .ok _) ∧
    (mpGranularity (some (1/8 : ℚ)) 0 matches .ok _) := by decide +kernel

/-! ## Over the reals -/

/-- Step counts of the long-transfer finding: `40 > 31` slots. -/
example : up0.ublm = true ∧ up0.umGradScale = 1 ∧ 1 ≤ up0.desiredBL ∧
    (up0.desiredBL : ℝ) < absMax 1 (fun _ => (40 : ℝ)) := by
  refine ⟨rfl, rfl, by decide, ?_⟩
  have := le_absMax (fun _ => (40 : ℝ)) (show 0 < 1 by decide)
  norm_num [up0] at this ⊢
  linarith

/-- Step counts of the exact transfer. -/
example : up0.um = true ∧ up0.ublm = true ∧ up0.umGradScale = 1 ∧
    absMax 2 (fun i => if i = 0 then (-3 : ℝ) else 1) = (3 : ℕ) ∧ 3 ≤ up0.desiredBL := by
  refine ⟨rfl, rfl, rfl, ?_, by decide⟩
  simp [absMax, List.range_succ]

/-- One by one, unquantised, transfer in every update after the first. -/
noncomputable def mpR : MPar ℝ :=
  { xSize := 1, dSize := 1, nxBins := 0, ndBins := 0, stoX := false, stoD := false, gran := 1/8,
    every := 1, nRows := 1, randomRow := false, transferLr := 1, sparsity := false }

noncomputable def cellR : Cell ℝ := ⟨1, -1, 1/8, 1/8, 1, 0, 0, 0, 0, 1, 1, 0⟩

noncomputable def msR : MS ℝ :=
  { chi := fun _ _ => 0, row := 0, idx := 1, avg := 0, qd := fun _ => 0,
    dev := Dev.create .constant ⟨1/8, 0, 0, 0, false⟩ 1 1 (fun _ => cellR) (fun _ => 0) (fun _ => 0) }

noncomputable def trR : TrainDraw ℝ := ⟨fun _ => 1/2, fun _ _ => 1/2⟩

noncomputable def muR : MU ℝ :=
  { lr := 1, x := fun _ => 1/4, d := fun _ => 3/4, mBatch := 1, ux := fun _ => 0, ud := fun _ => 0,
    ur := 0,
    w := fun _ => { u := 0, g := fun _ => 0, g2 := fun _ => 0, y := fun _ => 0, ty := .compressed,
                    tr := ⟨1, 1, 1, 0, false⟩, tx := trR, td := trR,
                    pd := ⟨fun _ _ _ => 0, fun _ _ _ => 0⟩ } }

theorem trunc_three_half : (trunc0 ((3 / 16 : ℝ) / (1 / 8)) : ℤ) = 1 := by
  unfold trunc0
  norm_num [Int.floor_eq_iff]

/-- The hypotheses of C59_ideal_sgd are met: the update transfers one step. -/
example (F : Fns ℝ) : ∃ r : MS ℝ × List (MT ℝ), mpR.update F msR muR = .ok r ∧
    r.2.map MT.row = [0] ∧ (∀ t ∈ r.2, t.dw 0 = 1) ∧
    r.1.dev.weight 0 - r.1.chi 0 0 = msR.dev.weight 0 - msR.chi 0 0 - 3 / 16 := by
  have hu : muR.Unit := by
    refine ⟨fun _ => by norm_num [muR], fun _ => by norm_num [muR], by norm_num [muR],
      fun _ => ⟨⟨fun _ => ?_, fun _ _ => ?_⟩, ⟨fun _ => ?_, fun _ _ => ?_⟩⟩⟩ <;> norm_num [muR, trR]
  have hwt : msR.dev.weight 0 = 0 := by
    norm_num [msR, Dev.weight, Dev.create, onSet, persistent, clipMM, cellR]
  obtain ⟨r, hr, hr2⟩ : ∃ r : MS ℝ × List (MT ℝ), mpR.update F msR muR = .ok r ∧
      ∃ dw, r.2 = [⟨0, dw⟩] ∧ dw 0 = 1 := by
    simp [MPar.update, MPar.accumulate, mpWidth, MPar.doTransfer, MPar.transfer, MPar.firstRow,
      MPar.nTransfer, MPar.forward, MPar.forwardRow, mpR, msR, muR, bind, Except.bind, mpGer]
    have := trunc_three_half
    norm_num at this ⊢
    refine ⟨_, _, ⟨rfl, rfl⟩, ?_⟩
    simp [this]
  obtain ⟨dw, hd1, hd2⟩ := hr2
  have hone : ∀ t ∈ r.2, t.dw 0 = 1 := by
    intro t ht; rw [hd1, List.mem_singleton] at ht; rw [ht]; exact hd2
  refine ⟨r, hr, by rw [hd1]; rfl, hone, ?_⟩
  have hone' : ∀ t ∈ r.2, ∀ k < mpR.xSize, |t.dw k| ≤ 1 := by
    intro t ht k hk
    have : k = 0 := by have : k < 1 := hk; omega
    rw [this, hone t ht, abs_one]
  obtain ⟨qx, qd, hC, h⟩ := C59_ideal_sgd F mpR (by unfold MPar.Uniform; simp [mpR]) msR (by decide) muR hu r hr 0 0
    (by decide) (by decide) rfl rfl (by norm_num [msR, Dev.create, parOk, implementsWriteNoise, persistent])
    (by norm_num [msR, Dev.create]) (by norm_num [msR, Dev.create, cellR, mpR])
    (by norm_num [msR, Dev.create, cellR, mpR])
    (by simp only [mpR, Nat.mul_one, Nat.zero_add]; rw [hwt]; norm_num [msR, Dev.create, cellR])
    (by simp only [mpR, Nat.mul_one, Nat.zero_add]; rw [hwt]; norm_num [msR, Dev.create, cellR])
    up0 rfl rfl rfl (by decide) 0 le_rfl false
    (by
      intro n t ht
      have hn : t = ⟨0, dw⟩ := by
        have := List.mem_of_getElem? ht
        rwa [hd1, List.mem_singleton] at this
      subst hn
      refine ⟨⟨(1 : ℕ), 1, 1 / (1 : ℕ)⟩, ?_, ?_⟩
      · have := transfer_scales up0 rfl rfl rfl 1 1 0 (by decide) dw (1/8) (by norm_num) 1 (by decide)
          (by decide) (by simp [absMax, hd2])
        simpa [mpR] using this
      · simp [muR]) hone'
  obtain ⟨ax, ad, -, -, hqx, hqd⟩ := hC
  have e1 := (hqx 0 (by decide)).1 le_rfl
  have e2 := (hqd 0 (by decide)).1 le_rfl
  rw [e1, e2] at h
  simp only [mpR, Nat.mul_one, Nat.zero_add] at h
  rw [h]
  norm_num [muR]

end Aihw.Pulsed.Ex
