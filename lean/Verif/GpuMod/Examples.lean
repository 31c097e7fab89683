import Verif.GpuMod.Tiles

/-!
# Examples for C42 on the GPU
-/
namespace Aihw.GpuMod
open Aihw.PostUpdate.Modifier (ModType ModPars)

/-- Arbitrary functions. -/
def exF : Fns where
  tanh x := x
  log _ := 0
  pow _ _ := 1
  logSqrt _ := 1

/-- Random numbers of the examples. -/
def exR : Draws where
  rnd _ := 1 / 4
  gauss i := i
  drop _ := 1
  reset _ := 1
  atGmax _ := 0
  side _ := 1
  atRandom _ := 1
  random _ := 0
  prog _ := 1
  drift _ := 0
  read _ := 0

/-- Two outputs, two inputs. -/
def exW : Arr := fun i => [1 / 2, -1, 3, 1].getD i 0

/-- Additive noise relative to the maximum. -/
def exG (c : Bool) : GPars := { base := { type := .addNormal, stdDev := 1 / 10, copyLastColumn := c } }

/-- The first application, of a history of none. -/
example : ∃ out, (apply exF (exG true) 4 2 false exR {} exW (fun _ => 0)).2 = .ok out ∧
    matrix 2 2 out = PostUpdate.Modifier.applyMod (exG true).base (byPosition 2 exR) (matrix 2 2 exW) :=
  C42_gpu_as_cpu exF (exG true) 2 2 [] exR exW _ rfl rfl (by decide) (fun _ => Or.inl rfl) (fun h => by cases h)
    (fun h => by cases h)

/-- The maximum is 1 without the last column, and stays 3 if the first application had it. -/
example : maxValue (exG true) 4 2 {} exW = some 1 ∧
    maxValue (exG true) 4 2 (after exF 4 2 [⟨exG false, exR, exW, fun _ => 0, false⟩]) exW = some 3 := by
  constructor <;> decide +kernel

/-- The hypotheses of the theorem on the maximum. -/
example : Relative (exG true) ∧ ∃ a, maxValue (exG true) 4 2 (after exF 4 2 ([] ++
    (⟨exG false, exR, exW, fun _ => 0, false⟩ : Call) :: [])) exW = some a ∧ IsMax 4 exW a :=
  ⟨⟨rfl, Or.inr (by decide)⟩,
    (C42_gpu_maximum exF 4 2 [] [] ⟨exG false, exR, exW, fun _ => 0, false⟩ (exG true) exW
      (fun c hc => by cases hc) ⟨rfl, Or.inr (by decide)⟩).2 ⟨rfl, Or.inr (by decide)⟩⟩

/-- The loop, with three threads for four elements. -/
example (body : ℕ → ℚ → ℚ) : wmLoop (GpuIo.visits 3 4) 4 2 false body exW (fun _ => 0) 1 = body 1 (-1) := by
  rw [(C42_gpu_loop 3 4 2 (by decide) (by decide) _ (List.Perm.refl _) false body exW _ 1).1]
  rfl

/-- A refused type. -/
example : (apply exF { base := { type := .none } } 4 2 false exR {} exW exW).2 = .error .runtimeError :=
  (C42_gpu_refuses exF { base := { type := .none } } 4 2 exR {} exW exW).1 false rfl rfl

/-- A switched off discretization which is not. -/
def exD : GPars :=
  { base := { type := .discretizeAddNormal, stdDev := 1 / 10, res := -1, relToActualWmax := false } }

example : ∃ out a, (apply exF exD 4 2 false exR {} exW exW).2 = .ok out ∧ 0 < a ∧ ∀ i, i < 4 → ∃ k : ℤ,
    out i = k * (|(-1 : ℚ)| * a) + 1 / 10 * a * exR.gauss i ∧ PostUpdate.Modifier.Nearest (exW i / (|(-1 : ℚ)| * a)) k :=
  (C42_gpu_discretize_add exF exD 4 2 exR {} exW exW rfl rfl rfl (by decide +kernel) (by decide +kernel)).2
    (by decide +kernel) rfl

/-- `DoReFa`. -/
example : ∃ out a, (apply exF { base := { type := .copy, res := 1 / 10 }, kind := .doReFa } 4 2 false exR {} exW exW).2 =
    .ok out ∧ (0 : ℚ) < a := by
  obtain ⟨out, a, h1, h2, -⟩ := C42_gpu_dorefa exF { base := { type := .copy, res := 1 / 10 }, kind := .doReFa } 4 2 exR {}
    exW exW rfl rfl (by decide +kernel) (by decide +kernel)
  exact ⟨out, a, h1, h2⟩

/-- PCM noise: limited only, a negative weight stuck at the maximum, and one which is reflected. -/
example : kPcm exF {} 0 25 1 exR 0 (-3) = -1 := by
  rw [C42_gpu_pcm_exact exF {} (by norm_num) (by norm_num) exR 0 (-3) (le_refl _) (le_refl _) (le_refl _) (le_refl _)]
  decide +kernel

example : kPcm exF { probGmax := 1 / 2 } 0 25 1 exR 0 (-(1 / 4)) = -1 :=
  (C42_gpu_pcm_stuck exF { probGmax := 1 / 2 } (by norm_num) (by norm_num) exR 0 (-(1 / 4)) (le_refl _) (by norm_num)
    (le_refl _) (le_refl _) (by decide +kernel) (by decide +kernel)).2.2.1 (by norm_num) (by decide +kernel)

example : kPcm exF { probGmax := 1 / 2 } 0 25 1 exR 0 (1 / 4) = 1 - 1 / 4 :=
  (C42_gpu_pcm_stuck exF { probGmax := 1 / 2 } (by norm_num) (by norm_num) exR 0 (1 / 4) (le_refl _) (by norm_num)
    (le_refl _) (le_refl _) (by decide +kernel) (by decide +kernel)).2.1 (by norm_num) (by decide +kernel)

/-- A weight below and one above the threshold. -/
example : PcmStart (threshold { zeroThres := 10 } 1) 25 1 (1 / 100) 0 ∧ PcmStart (threshold { zeroThres := 10 } 1) 25 1 (1 / 2) (25 / 2) := by
  constructor
  · have := pcmStart_spec (gMax := 25) (threshold { zeroThres := 10 } 1) (a := 1) (by norm_num) (1 / 100)
    rwa [show pcmStart (threshold { zeroThres := 10 } 1) 25 1 (1 / 100) = 0 by decide +kernel] at this
  · have := pcmStart_spec (gMax := 25) (threshold { zeroThres := 10 } 1) (a := 1) (by norm_num) (1 / 2)
    rwa [show pcmStart (threshold { zeroThres := 10 } 1) 25 1 (1 / 2) = 25 / 2 by decide +kernel] at this

/-- A checkpoint on the CPU which forgets that evaluation used the modified weights `7`. -/
example : used ({ w := 5, fb := some 7, enableTest := true } : Tile ℕ) true = 7 ∧
    used (loadCpu (dumpTile ({ w := 5, fb := some 7, enableTest := true } : Tile ℕ)) { w := 5 }) true = 5 :=
  ⟨rfl, (C42_checkpoint ({ w := 5, fb := some 7, enableTest := true } : Tile ℕ) { w := 5 }).2.2.2.1 rfl⟩

/-- An evaluation with modified weights, before the tile is copied. -/
example : used ([Act.modify true 7, .write 6].foldl act ({ w := 5 } : Tile ℕ)) true = 7 ∧
    used ([Act.modify true 7, .write 6, .copied].foldl act ({ w := 5 } : Tile ℕ)) true = 6 := ⟨rfl, rfl⟩

end Aihw.GpuMod
