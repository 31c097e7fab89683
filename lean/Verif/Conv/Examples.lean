import Verif.Conv.Props6

/-!
# C56: concrete cases
-/
namespace Aihw.Conv

/-- A tile with two inputs and one output, weights 1 and 10. -/
def exTile : Nat → List ℚ → Nat → ℚ := fun _ v _ => (List.zipWith (· * ·) [1, 10] v).sum

/-- Kernel 2, stride 1, no padding. -/
def exK : KDim := ⟨2, 1, 0, 1⟩

/-- One channel. -/
def exL : Layer := ⟨1, 1, [exK], false, false⟩

-- the hypotheses are met: inputs of several lengths, with padding, stride and dilation
example : WF exL ⟨2, 1, [3], [1, 2, 3, 4, 5, 6]⟩ ∧ exK.Fits 3 ∧ exK.outSize 3 = 2 := by
  unfold WF KDim.Fits; decide

example : (⟨3, 2, 1, 2⟩ : KDim).Fits 7 ∧ (⟨3, 2, 1, 2⟩ : KDim).outSize 7 = 3 ∧
    (⟨3, 2, 1, 2⟩ : KDim).coord 1 2 = 5 ∧ (⟨3, 2, 1, 2⟩ : KDim).coord 0 0 = -1 := by
  unfold KDim.Fits; decide

example : WF ⟨2, 3, [exK, ⟨3, 2, 1, 2⟩], true, true⟩ ⟨1, 2, [2, 7], List.replicate 28 1⟩ := by
  unfold WF; decide

-- forward: two samples, a history with another length
example : (exL.forwardI exTile (exL.run ⟨none⟩ [(exTile, ⟨1, 1, [5], [1, 1, 1, 1, 1]⟩)])
    ⟨2, 1, [3], [1, 2, 3, 4, 5, 6]⟩).2 = .ok ([2, 1, 2], [21, 32, 54, 65]) := by decide +kernel

-- backward: the gradient 1, 1 of two windows
example : exL.backwardI (fun _ v i => ([1, 10] : List ℚ).getD i 0 * v.sum)
    (exL.run ⟨none⟩ [(exTile, ⟨1, 1, [3], [1, 2, 3]⟩)]) 1 [1, 2] = .ok [1, 12, 20] := by decide +kernel

-- update: pairs of windows and errors
example : exL.updateI (exL.run ⟨none⟩ [(exTile, ⟨1, 1, [3], [1, 2, 3]⟩)]) 1 [1, 2, 3] [7, 8] =
    .ok [([1, 2], [7]), ([2, 3], [8])] := by decide +kernel

-- finding: 2 x 3 and then 3 x 2 pixels, the second result has the size of the first
example : (Layer.forwardI ⟨1, 1, [exK, ⟨1, 1, 0, 1⟩], false, true⟩ exTile
      (Layer.run ⟨1, 1, [exK, ⟨1, 1, 0, 1⟩], false, true⟩ ⟨none⟩ [(exTile, ⟨1, 1, [2, 3], [1, 2, 3, 4, 5, 6]⟩)])
      ⟨1, 1, [3, 2], [1, 2, 3, 4, 5, 6]⟩).2 = .ok ([1, 1, 1, 3], [41, 52, 63]) ∧
    (Layer.forwardI ⟨1, 1, [exK, ⟨1, 1, 0, 1⟩], false, true⟩ exTile ⟨none⟩
      ⟨1, 1, [3, 2], [1, 2, 3, 4, 5, 6]⟩).2 = .ok ([1, 1, 2, 2], [31, 42, 53, 64]) := by decide +kernel

-- finding: twice as many channels are accepted
example : (Layer.forwardI ⟨1, 1, [exK], false, false⟩ exTile ⟨none⟩ ⟨1, 2, [2], [1, 2, 7, 8]⟩).2 =
    .ok ([1, 1, 1], [21]) := by decide +kernel

-- finding: an evaluation with a longer input between the backward pass and the optimizer step spoils
-- the update (windows 1 4, 2 2, 3 3 instead of 1 2, 2 3, 3 4) ...
example : exL.updateI (exL.run ⟨none⟩ [(exTile, ⟨1, 1, [4], [1, 2, 3, 4]⟩), (exTile, ⟨1, 1, [5], [0, 0, 0, 0, 0]⟩)])
      1 [1, 2, 3, 4] [7, 8, 9] = .ok [([1, 4], [7]), ([2, 2], [8]), ([3, 3], [9])] ∧
    exL.updateI (exL.run ⟨none⟩ [(exTile, ⟨1, 1, [4], [1, 2, 3, 4]⟩)])
      1 [1, 2, 3, 4] [7, 8, 9] = .ok [([1, 2], [7]), ([2, 3], [8]), ([3, 4], [9])] := by decide +kernel

-- ... one with a shorter input makes it read past the index tensor
example : exL.updateI (exL.run ⟨none⟩ [(exTile, ⟨1, 1, [4], [1, 2, 3, 4]⟩), (exTile, ⟨1, 1, [3], [0, 0, 0]⟩)])
      1 [1, 2, 3, 4] [7, 8, 9] = .error .other := by decide +kernel

end Aihw.Conv
