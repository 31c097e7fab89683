import Verif.GpuDecay.Reset

/-!
# C89 on the GPU: the hypotheses are met
-/
namespace Aihw.GpuDecay

open Aihw.Pulsed

/-- A device with write noise, two outputs and three inputs: decay 1/2 towards the reset bias 1/4. -/
def exDev : Dev ℚ :=
  { kd := .linear false, par := ⟨1/10, 0, 2, 0, false⟩, xSize := 3, dSize := 2
    cell := fun k => ⟨1 + k, -1, 1/10, 1/10, 1/2, if k = 4 then 1/5 else 0, 1/4, 0, 0, 0, 0, 0⟩
    st := fun _ => ⟨0, 0⟩ }

/-- Two threads visit six elements, the second thread first. -/
def exOrder : List ℕ := [1, 3, 5, 4, 0, 2]

theorem exOrder_ok : exOrder.Perm (GpuIo.visits 2 6) := by decide +kernel

def exMem : Mem ℚ := ⟨fun _ => 0, fun t => t⟩

/-- Output 1, input 1 is at 3 on the GPU and at 4 on the CPU. -/
example : kept exDev (gpuDecay (populate exDev) (some 2) exOrder exOrder (fun _ => 1) exMem) 1 1 = 1 / 4 := by
  rw [C89_gpu_decay exDev (some 2) false 2 (by norm_num) exOrder exOrder exOrder_ok _ _ 1 1 (by decide) (by decide)]
  decide +kernel

example : (onMem (populate exDev) (fun w t => w t + 1) exOrder (fun _ => 1) exMem).vis 3 = 4 + 2 * 1 := by
  have h := (C89_gpu_noise exDev rfl rfl 2 (by norm_num) (fun w t => w t + 1) exOrder exOrder_ok (fun _ => (1 : ℚ)) exMem 1 1
    (by decide) (by decide) ⟨0, 0⟩ id 1 (by decide +kernel)).1
  refine Eq.trans h ?_
  decide +kernel

example : kept exDev (gpuDiffuse (populate exDev) (fun _ => 5) exOrder exOrder (fun _ => 1) exMem) 1 1 = 4 := by
  rw [(C89_gpu_diffuse exDev (fun _ => 5) 2 (by norm_num) exOrder exOrder exOrder_ok _ _ 1 1 (by decide) (by decide)).1
    ⟨4, by decide, by decide +kernel⟩]
  decide +kernel

example : kept exDev (gpuClip (populate exDev) (1/2) exOrder exOrder exOrder (fun _ => 1) exMem) 1 1 = 1 / 2 := by
  rw [C89_gpu_clip exDev (1/2) 2 (by norm_num) exOrder exOrder exOrder exOrder_ok exOrder_ok _ _ 1 1 (by decide) (by decide)]
  decide +kernel

/-- Resetting two columns from the last one on: the last and, after the wrap-around, the first one; the one between stays. -/
example (o : ℕ → List ℕ) (ho : ∀ k, (o k).Perm (GpuIo.visits 2 k)) :
    let m := gpuReset (populate exDev) 2 2 1 (fun _ => 0) (fun _ => 0) o o exOrder (fun _ => 0) exMem
    kept exDev m 1 2 = 1 / 4 ∧ kept exDev m 1 0 = 1 / 4 ∧ kept exDev m 1 1 = 3 := by
  have h := C89_gpu_reset exDev 2 (by decide) 2 1 (by norm_num) (fun _ => 0) (fun _ => 0) 2 (by norm_num) o o ho ho exOrder
    (fun _ => 0) exMem 1
  refine ⟨?_, ?_, ?_⟩
  · refine ((h 2 (by decide) (by decide)).1 ⟨Or.inr ⟨0, by decide, rfl⟩, Or.inl le_rfl⟩).trans ?_
    decide +kernel
  · refine ((h 0 (by decide) (by decide)).1 ⟨Or.inr ⟨1, by decide, rfl⟩, Or.inl le_rfl⟩).trans ?_
    decide +kernel
  · refine ((h 1 (by decide) (by decide)).2 ?_).trans ?_
    · rintro ⟨h1 | ⟨q, h1, h2⟩, _⟩
      · exact absurd h1 (by decide)
      · have : q < 2 := by exact_mod_cast h1
        have h3 : q = 0 ∨ q = 1 := by omega
        rcases h3 with rfl | rfl <;> exact absurd h2 (by decide)
    · decide +kernel

/-- Such orders exist. -/
example : ∀ k, (GpuIo.visits 2 k).Perm (GpuIo.visits 2 k) := fun _ => List.Perm.refl _

end Aihw.GpuDecay
