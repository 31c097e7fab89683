import Verif.GpuPost.Clip
import Verif.GpuPost.Logical
import Verif.GpuPost.Checkpoint

/-!
# Concrete cases
-/
namespace Aihw.GpuPost
open Aihw.PostUpdate (RemapPars)
open Aihw.PostUpdate.Clip (ClipPars docBound)
open Aihw.Pulsed (DriftPar driftLaw)

/-- Fixed-value clipping at 1 of a 2 × 2 matrix with weights 0, 1, 2, 3. -/
example : ∃ w', clip ⟨.fixedValue, 1, 1⟩ 2 2 (fun k => (k : ℝ)) = .ok w' ∧ w' 3 = 1 ∧ w' 0 = 0 ∧ w' 7 = 7 := by
  refine ⟨clipKernel 4 |1| fun k => (k : ℝ), by simp [clip], ?_, ?_, ?_⟩ <;>
    simp [clipKernel, GpuIo.mapTo, PostUpdate.Clip.clampR]

/-- Its hypotheses. -/
example : 2 ≤ 2 * 2 ∧ 0 < docBound ⟨.fixedValue, 1, 1⟩ (matrix 2 2 fun k => (k : ℝ)) := by
  refine ⟨by norm_num, ?_⟩
  simp [docBound]

/-- The bound of average channel maximum: rows (0, 2) and (1, 3). -/
example : docBound ⟨.averageChannelMax, -1, 1⟩ (matrix 2 2 fun k => (k : ℝ)) = 5 / 2 := by
  simp [docBound, matrix, PostUpdate.Clip.rowAmax, List.range_succ]
  norm_num

/-- Equal weights become zero. -/
example : ∃ w', clip ⟨.layerGaussian, -1, 5 / 2⟩ 2 2 (fun _ => 7) = .ok w' ∧ w' 3 = 0 := by
  obtain ⟨⟨w', h, h0⟩, -⟩ := C32_gpu_constant_zeroed ⟨.layerGaussian, -1, 5 / 2⟩ rfl 2 2 (fun _ => 7) (by norm_num) 7
    (fun _ _ => rfl)
  exact ⟨w', h, h0 3 (by norm_num)⟩

/-- A single weight becomes not-a-number. -/
example : clip ⟨.layerGaussian, -1, 5 / 2⟩ 1 1 (fun _ => 7) = .error .nanInf :=
  ((C32_gpu_single_weight ⟨.layerGaussian, -1, 5 / 2⟩ rfl 1 1 (fun _ => 7) rfl).1 (by norm_num)).1

/-- A negative factor sets all weights to a negative value. -/
example : docBound ⟨.layerGaussian, -1, -1⟩ [[0, 2]] < 0 := by
  have h : 0 < PostUpdate.Clip.stdOf [0, 2] := by
    unfold PostUpdate.Clip.stdOf
    apply Real.sqrt_pos.2
    norm_num
  have : docBound ⟨.layerGaussian, -1, -1⟩ [[0, 2]] = PostUpdate.Clip.stdOf [0, 2] * -1 := by
    unfold docBound
    dsimp only
    rw [if_neg (by norm_num)]
    rfl
  rw [this]
  linarith

/-- Weights (1, -4; 0, 2), by columns. -/
def mem4 : Arr := fun k => [1, 0, -4, 2].getD k 9

def shown (r : Except PyErr (Arr × Vec)) : Option (Vec × Vec) :=
  match r with
  | .ok ws => some ((List.range 5).map ws.1, ws.2)
  | .error _ => none

example : shown (tileRemap .pulsedFP { type := .layerwise } 2 2 mem4 [1, 10]) =
    some ([1 / 4, 0, -1, 1 / 2, 9], [4, 40]) := by decide +kernel

example : shown (tileRemap .simple { type := .channelwise, remappedWmax := 1 / 2 } 2 2 mem4 [1, 10]) =
    some ([1 / 8, 0, -1 / 2, 1 / 2, 9], [8, 40]) := by decide +kernel

/-- A bounded range: the second scale would be 20, at most 5 times the smallest is allowed. -/
example : shown (tileRemap .simple { type := .channelwise, maxScaleRange := 5 } 2 2 mem4 [1, 10]) =
    some ([1 / 4, 0, -1, 4, 9], [4, 5]) := by decide +kernel

/-- A negative scale: the second row had logical weights (0, -20) and has (0, 20). -/
example : shown (tileRemap .simple { type := .channelwise, maxScaleRange := 5 } 2 2 mem4 [1, -10]) =
    some ([1 / 4, 0, -1, 1, 9], [4, 20]) := by decide +kernel

example : shown (tileRemap .pulsedOther { type := .layerwise } 2 2 mem4 [1, 10]) = none ∧
    shown (tileRemap .simple { type := .channelwise, maxScaleRange := 5, remappedWmax := 1 / 2 } 2 2 mem4 [1, 10]) = none ∧
    shown (tileRemap .simple { type := .layerwise } 2 2 mem4 [1]) = none := by decide +kernel

/-- Three calls of one unit with two threads on four weights: 6 becomes 2. -/
example (g : ℕ → ℝ) (o : List ℕ) (ho : o.Perm (GpuIo.visits 2 4)) :
    (gpuRun (⟨1, 0, 0, 0, 1, 0, 0, 1, 0, 0⟩ : DriftPar) none none (fun _ => 6)
      ([(o, ⟨1, g, g⟩), (o, ⟨1, g, g⟩)] ++ [(o, ⟨1, g, g⟩)])).1 3 = 2 := by
  rw [C47_gpu_total_time 2 4 (by norm_num) _ rfl le_rfl none _ _ _ (by
    intro c hc
    simp only [List.cons_append, List.nil_append, List.mem_cons, List.not_mem_nil, or_false, or_self] at hc
    rw [hc]; exact ho) 3 (by norm_num)]
  simp only [driftLaw, DriftPar.a, elemNu, Option.elim]
  norm_num [Real.rpow_neg_one]

/-- Starting anew after two units of three: 6 is 3 after two units, and then remains 3 for one unit, instead of 2. -/
example (g : ℕ → ℝ) (o : List ℕ) (ho : o.Perm (GpuIo.visits 2 4)) :
    let p : DriftPar := ⟨1, 0, 0, 0, 1, 0, 0, 1, 0, 0⟩
    (gpuRun p none none (gpuRun p none none (fun _ => 6) [(o, ⟨2, g, g⟩)]).1 [(o, ⟨1, g, g⟩)]).1 3 = 3 ∧
      (gpuRun p none none (fun _ => 6) [(o, ⟨2, g, g⟩), (o, ⟨1, g, g⟩)]).1 3 = 2 := by
  intro p
  obtain ⟨h1, h2⟩ := C47_restarted 2 4 (by norm_num) p rfl le_rfl le_rfl le_rfl (fun _ => 6) (o, ⟨2, g, g⟩)
    (o, ⟨1, g, g⟩) ho ho 3 (by norm_num)
  rw [h1, h2]
  simp only [p, driftLaw, DriftPar.a]
  norm_num [Real.rpow_neg_one]

/-- A saved state. -/
def st (n : ℕ) : DrifterState ℕ := ⟨1, n, 0, 0, 0, 0⟩

def clockOf (r : Except PyErr (Option (DrifterState ℕ))) : Option (Option ℕ) :=
  match r with
  | .ok s => some (s.map (·.currentT))
  | .error _ => none

def others : Dict ℕ := [(["decay_scale"], 3), (["fb_wmodifier_cuda", "x"], 4)]

example : NoDrifter others := by
  intro e he
  simp only [others, List.mem_cons, List.not_mem_nil, or_false] at he
  rcases he with rfl | rfl <;> decide

example :
    clockOf (loadTile ⟨true, false⟩ (st 0) (some (st 0)) (saveTile ⟨true, false⟩ (some (st 7)) others) false) = some (some 7) ∧
    clockOf (loadTile ⟨true, true⟩ (st 0) (some (st 0)) (saveTile ⟨true, true⟩ (some (st 7)) others) false) = some (some 0) ∧
    clockOf (loadTile ⟨true, true⟩ (st 0) (some (st 0)) (saveTile ⟨true, true⟩ (some (st 7)) others) true) = none ∧
    clockOf (loadTile ⟨false, false⟩ (st 0) none (saveTile ⟨false, false⟩ (some (st 7)) others) false) = some none ∧
    clockOf (loadTile ⟨false, true⟩ (st 0) none (saveTile ⟨false, true⟩ (some (st 7)) others) false) = some none := by
  decide +kernel

end Aihw.GpuPost
