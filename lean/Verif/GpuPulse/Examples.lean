import Verif.GpuPulse.Implicit

/-!
# C35 on the GPU: the hypotheses are met
-/
namespace Aihw.GpuPulse

open Aihw.Pulsed

/-- A batch of two samples with two entries, sample-major: `(1, -2)` and `(0, 0)`. -/
noncomputable def exX : Input := ⟨false, 2, fun i => if i = 0 then 1 else if i = 1 then -2 else 0⟩

/-- The errors of the two samples, transposed: `(-1)` and `(3)`. -/
noncomputable def exD : Input := ⟨true, 1, fun i => if i = 0 then -1 else 3⟩

/-- `desired_bl = 31`, update and length management. -/
noncomputable def exPar : UpPar := ⟨false, 31, true, true, 1⟩

theorem ex_x : ∃ j < exX.size, exX.sample 2 0 j ≠ 0 := ⟨1, by decide, by simp [exX, Input.sample, Input.pos]⟩

theorem ex_d : ∃ i < exD.size, exD.sample 2 0 i ≠ 0 := ⟨0, by decide, by simp [exD, Input.sample, Input.pos]⟩

/-- The first sample gets the CPU's length and scales. -/
example : ∃ p, prepare exPar.initialize (1 / 10) (1 / 1000) 2 exX exD = .ok p ∧
    ∃ r, exPar.initialize.scales 2 1 (exX.sample 2 0) (exD.sample 2 0) (1 / 10) (1 / 1000) = .ok r ∧
      p.slots 0 = r.bl ∧ p.dFactor 0 = r.a ∧ p.xFactor 0 = r.b := by
  obtain ⟨p, hp, h⟩ := C35_gpu_as_cpu exPar 2 exX exD (1 / 10) (1 / 1000) (by norm_num) (by norm_num [exPar])
    (by norm_num) (by simp [exPar])
  exact ⟨p, hp, h 0 (by norm_num) ex_x ex_d⟩

/-- Its number of slots: `k_val = 1/10 * 2 * 1 / (1/1000) = 200` is more than 31. -/
example : kVal exPar (1 / 10) (1 / 1000) 2 1 = 200 ∧ umK exPar 31 (1 / 10) (1 / 1000) 2 1 = 31 := by
  have h : kVal exPar (1 / 10) (1 / 1000) 2 1 = 200 := by
    rw [kVal, abs_of_pos (by norm_num)]; norm_num [exPar]
  refine ⟨h, ?_⟩
  rw [umK, h]
  have : ⌈(200 : ℝ)⌉ = 200 := by exact_mod_cast Int.ceil_intCast (R := ℝ) 200
  simp [this]

/-- The second sample has no pulses. -/
example : ∃ p, prepare exPar.initialize (1 / 10) (1 / 1000) 2 exX exD = .ok p ∧
    ∀ k, hit exX 2 p.slots p.xFactor 0 false (fun _ => 0) (fun _ _ => 0) k (exX.pos 2 1 0) = false ∨
      hit exD 2 p.slots p.dFactor 0 false (fun _ => 0) (fun _ _ => 0) k (exD.pos 2 1 0) = false := by
  obtain ⟨p, hp, h⟩ := C35_gpu_nothing exPar 2 exX exD (1 / 10) (1 / 1000) (by norm_num) 1 (by norm_num)
    (Or.inr (Or.inl fun j hj => by
      simp only [exX] at hj
      simp [exX, Input.sample, Input.pos]; omega))
  exact ⟨p, hp, fun k => h 0 false _ _ _ _ (fun _ => by norm_num) (fun _ => by norm_num) k 0 (by simp [exX]) 0
    (by simp [exD])⟩

/-- Without length management and `lr = 1`, `g = 1/1000`, `desired_bl = 10`: for a sample with `X = D = 1` the largest
probability for `d` is `√100 = 10` on the CPU, of which one is used: nine tenths of the update are missing. -/
example : ∃ r : BLAB, (⟨false, 10, true, false, 1⟩ : UpPar).initialize.scales 1 1 (fun _ => 1) (fun _ => 1) 1 (1 / 1000) = .ok r ∧
    r.bl = 1000 ∧ r.b = 1 / 10 ∧ r.a = 10 := by
  obtain ⟨p, _, h⟩ := C35_gpu_long ⟨false, 10, true, false, 1⟩ 1 ⟨false, 1, fun _ => 1⟩ ⟨false, 1, fun _ => 1⟩ 1 (1 / 1000)
    (by norm_num) (by norm_num) (by norm_num) rfl rfl rfl rfl (by norm_num)
  obtain ⟨-, h2⟩ := h 0 1 1 ⟨0, by norm_num, by simp [Input.sample]⟩ (fun _ _ => by simp [Input.sample])
    ⟨0, by norm_num, by simp [Input.sample]⟩ (fun _ _ => by simp [Input.sample]) one_pos one_pos (by norm_num)
  obtain ⟨r, hr, h3, h4, h5⟩ := h2 (by norm_num)
  refine ⟨r, hr, ?_, ?_, ?_⟩
  · rw [h3]
    have : (1 : ℝ) / (1 / 1000) = ((1000 : ℤ) : ℝ) := by norm_num
    rw [this, Int.ceil_intCast]
  · have e : (1 / 1000 * ((10 : ℕ) : ℝ) / 1) = (1 / 10) ^ 2 := by norm_num
    rw [one_mul] at h4
    rw [h4]
    show √(1 / 1000 * ((10 : ℕ) : ℝ) / 1) = _
    rw [e, Real.sqrt_sq (by norm_num)]
  · have e : (1 / (1 / 1000 * ((10 : ℕ) : ℝ))) = (10 : ℝ) ^ 2 := by norm_num
    rw [one_mul, one_mul, one_mul] at h5
    rw [h5]
    show √(1 / (1 / 1000 * ((10 : ℕ) : ℝ))) = _
    rw [e, Real.sqrt_sq (by norm_num)]

/-- A resolution for implicit pulses. -/
example : FullScale (1 / 100) := Or.inr ⟨100, by norm_num, by norm_num⟩

/-- Without that condition: one is discretized to `9/10` by the GPU (and stays one for a large value on the CPU). -/
example : discretized (3 / 10 : ℝ) false (min 5 1) 0 = 9 / 10 ∧
    max (min (discretized (3 / 10 : ℝ) false 5 0) 1) 0 = 1 := by
  have h1 : rint ((1 : ℝ) / (3 / 10)) = 3 := by
    have hf : ⌊(1 : ℝ) / (3 / 10)⌋ = 3 := by rw [Int.floor_eq_iff]; norm_num
    unfold rint; rw [hf]; norm_num
  have h2 : rint ((5 : ℝ) / (3 / 10)) = 17 := by
    have hf : ⌊(5 : ℝ) / (3 / 10)⌋ = 16 := by rw [Int.floor_eq_iff]; norm_num
    unfold rint; rw [hf]; norm_num
  constructor
  · rw [min_eq_right (by norm_num), discretized, if_neg (by norm_num)]
    simp only [Bool.false_eq_true, if_false, h1]; norm_num
  · rw [discretized, if_neg (by norm_num)]
    simp only [Bool.false_eq_true, if_false, h2]; norm_num

end Aihw.GpuPulse
