import Verif.Wpo.ObjProps

/-!
# Concrete cases for C67 and C68
-/
namespace Aihw.Wpo
open Aihw.Inference

/-- Non-vacuity: two pairs, the second factor open, three positive grid points. -/
def exOpt : Opt ℚ :=
  { fLst := [some 1, none], gMin := 5, gMax := 25, gErr := 0, fMin := 1 / 10, fMax := 5, useMaxKw := false, symmetric := true
    maxAbs := 2, grid := mkGrid 2 3 }

example : Valid exOpt 3 := by
  refine ⟨by decide +kernel, by decide +kernel, by decide +kernel, by decide +kernel, by decide +kernel, ?_, by simp [exOpt],
    by norm_num, rfl⟩
  intro f hf
  simp [exOpt] at hf
  rw [hf]; norm_num

example : numBounds exOpt = 11 := by decide +kernel

example : denormalize exOpt [29 / 49, 1, 1 / 2, 0, 1, 1 / 4, 0, 1 / 2, 1, 1 / 2, 0] =
    .ok ([1, 3], [[some 5, some 5, some 25, some 25, some 25], [some 25, some 25, some 25, some 5, some 5],
      [some 5, some (35 / 3), some 5, some (55 / 3), some 25], [some 25, some (55 / 3), some 5, some (35 / 3), some 5]]) := by
  decide +kernel

example : InCube exOpt [29 / 49, 1, 1 / 2, 0, 1, 1 / 4, 0, 1 / 2, 1, 1 / 2, 0] := by
  refine ⟨by decide +kernel, ?_⟩
  intro v hv
  simp only [List.mem_cons, List.not_mem_nil, or_false] at hv
  rcases hv with rfl | rfl | rfl | rfl | rfl | rfl | rfl | rfl | rfl | rfl | rfl <;> norm_num

/-- An error measure that depends on converter, mapping and evaluation. -/
def exWorld : World ℚ Bool Bool :=
  { err := fun c m k => if c then (if m then 1 else 2) else 3 + k, build := fun fs _ => fs == [1, 3] }

def exState : OptState ℚ Bool Bool :=
  { opt := exOpt, conv := false, mapping := false, saved := true, convBaseline := true, lossBaseline := 0, bestLoss := 0
    margin := 1 / 8, iterations := 3 }

example : getLossBaseline exWorld exState 0 = .ok 4 := by decide +kernel

example : lossFxn exWorld { exState with lossBaseline := 4 } 7 [29 / 49, 1, 1 / 2, 0, 1, 1 / 4, 0, 1 / 2, 1, 1 / 2, 0] =
    .ok (-3 / 8) := by decide +kernel

example : ((runOptimizer exWorld exState 0 [29 / 49, 1, 1 / 2, 0, 1, 1 / 4, 0, 1 / 2, 1, 1 / 2, 0] (-3 / 8)).map
    fun r => (r.1.bestLoss, r.1.mapping, r.1.conv, r.2.2.truthy)) = .ok (2, true, true, true) := by decide +kernel

/-- Not beaten, still truthy. -/
example : (successOf (1 / 2 : ℚ)).truthy = true ∧ stops (1 / 2 : ℚ) = false := by decide +kernel

example : tnmse (2 : ℚ) 1 2 [[1, -2]] [[[1, -1]], [[2, -2]]] = .ok (25 / 2) := by decide +kernel

example : interpAt ([-1, 0, 4] : List ℚ) 5 3 = 2 := by decide +kernel

example : lossOut false (4 : ℚ) (1 / 8) 3 = .ok (-1 / 8) := by decide +kernel

end Aihw.Wpo
