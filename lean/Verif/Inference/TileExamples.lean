import Verif.Inference.TileComp

/-!
# Concrete histories of inference tiles (C18, C19)
-/
namespace Aihw.Inference.Life
open Aihw.Periphery

/-- Non-vacuity: set weights, program, train (ignored by the next programming), drift, set other weights (discarded by the next
drift), drift again. -/
example :
    let s := irun (fresh demoIC demoC demoNM) [.base (.setWeights [[1, 2], [3, 4]] none true none)]
    let s1 := irun s [.program true none 0]
    let s2 := irun s1 [.base (.setLearningRate (some 1)), .base (.update [1, 1] [1, 1])]
    let s3 := irun s2 [.program true none 1]
    let s4 := irun s3 [.drift 1 0, .base (.setWeights [[9, 9], [9, 9]] none true none), .drift 3 0]
    s.t.reference = none ∧ s1.t.w = [[1, 2], [3, 4]] ∧ s2.t.w = [[0, 1], [2, 3]] ∧ s3.t.w = [[2, 3], [4, 5]] ∧
    s4.t.w = [[1 / 2, 3 / 4], [1, 5 / 4]] ∧ s4.alpha = [4] ∧
    (forwardI [1, 1] 0 true s4).1 = .ok [5, 9] ∧ (forwardI [1, 1] 0 false s4).1 = .ok [5 / 4, 9 / 4] ∧
    (forwardI [1, 1] 0 true (irun s4 [.base (.setWeights [[1, 0], [0, 1]] none true none), .program true none 0])).1 = .ok [4, 4] := by
  decide +kernel

/-- Non-vacuity of the transposed case. -/
example :
    let ic : ICfg := { demoIC with inTrans := true }
    let s := irun (fresh ic demoC demoNM) [.base (.setWeights [[1, 2], [3, 4]] none true none)]
    (program true none 1 s).1 = .error .attributeError ∧ (program true none 1 s).2.t.w = [[2, 3], [4, 5]] ∧
    (drift 1 0 (program true none 1 s).2).1 = .error .typeError := by
  decide +kernel

/-- Non-vacuity: a fresh tile, set, programmed, and decayed uniformly resp. by line. -/
example :
    let nm : NM Unit := ⟨fun _ w => .ok (w, ()), fun _ w _ t => .ok (List.zipWith (fun r c => r.map (· * c)) w [1 / t, 1 / (t + 1)])⟩
    let ic : ICfg := { comp := .perColumn, read := fun _ w => exactRead 2 w }
    let s := irun (fresh ic demoC nm) [.base (.setWeights [[1, 2], [3, -4]] none true none), .program true none 0, .drift 2 0]
    s.t.w = [[1 / 2, 1], [1, -4 / 3]] ∧ s.alpha = [2, 3] ∧ (forwardI [1, 1] 0 true s).1 = .ok [3, -1] ∧
    rowMeanAbs 2 [3, -4] = 7 / 2 ∧ meanAbs 2 [[1, 2], [3, -4]] = 5 / 2 := by
  decide +kernel

end Aihw.Inference.Life
