import Verif.Conv.MappedProps2
import Verif.Conv.Examples

/-!
# C57: concrete cases
-/
namespace Aihw.Conv

/-- Three channels in parts of two and one, three outputs in parts of two and one. -/
def exM : MLayer := ⟨3, 3, [exK], false, [2, 1], [2, 1], some [100, 200, 300]⟩

-- the constructor gives these parts for kernels of 2 elements and tiles of at most 4 x 2
example : MLayer.make 3 3 [exK] false 4 2 true (some [100, 200, 300]) = .ok exM := by
  simp [MLayer.make, splitGroups, exM, exK]; decide

example : splitGroups 6 4 2 = .ok [2, 1] ∧ splitGroups 14 6 2 = .ok [3, 2, 2] ∧
    splitGroups 6 0 2 = .ok [3] ∧ splitGroups 18 8 9 = .error .moduleError := by decide

/-- Two samples of three channels and three pixels. -/
def exX : Img := ⟨2, 3, [3], [1, 2, 3, 4, 5, 6, 7, 8, 9, 10, 11, 12, 13, 14, 15, 16, 17, 18]⟩

example : MWF exM exX ∧ exK.Fits 3 := by unfold MWF KDim.Fits; decide

/-- Tiles that return the sum of their inputs times ten to the power of the output, plus the number of the tile. -/
def exT : Nat → Nat → Nat → List ℚ → Nat → ℚ := fun i j _ v o =>
  v.sum * [1, 10].getD o 0 + [0, 1000].getD i 0 + [0, 5000].getD j 0

-- forward with an earlier input of another length
example : (exM.forwardI exT (exM.run ⟨0, none⟩ [(exT, ⟨1, 3, [4], List.replicate 12 1⟩)]) exX).2 =
    .ok ([2, 3, 2], [1127, 1133, 1470, 1530, 11327, 11333, 1181, 1187, 2010, 2070, 11381, 11387]) := by
  decide +kernel

/-- A weight matrix for `exM`. -/
def exW : Mat := [[1, 2, 3, 4, 5, 6], [7, 8, 9, 10, 11, 12], [13, 14, 15, 16, 17, 18]]

-- tiles and round trip
example : exM.tileWeight exW 0 0 = [[1, 2, 3, 4], [7, 8, 9, 10]] ∧ exM.tileWeight exW 1 1 = [[17, 18]] ∧
    exM.getWeight (exM.tileWeight exW) = exW := by decide +kernel

/-- One tile, one channel, kernel 2. -/
def exOne : MLayer := ⟨1, 1, [exK], false, [1], [1], none⟩

-- finding: two channels of two pixels are rejected once, then accepted with the indices of the three pixels of
-- the accepted input
example :
    (exOne.forwardI (fun _ _ => exTile) (exOne.run ⟨0, none⟩ [(fun _ _ => exTile, ⟨1, 1, [3], [1, 2, 3]⟩)])
      ⟨1, 2, [2], [1, 2, 7, 8]⟩).2 = .error .runtimeError ∧
    (exOne.forwardI (fun _ _ => exTile) (exOne.run ⟨0, none⟩ [(fun _ _ => exTile, ⟨1, 1, [3], [1, 2, 3]⟩),
      (fun _ _ => exTile, ⟨1, 2, [2], [1, 2, 7, 8]⟩)]) ⟨1, 2, [2], [1, 2, 7, 8]⟩).2 = .ok ([1, 1, 2], [21, 72]) := by
  decide +kernel

-- and so is a legal input with as many elements: four pixels would give three windows
example :
    (exOne.forwardI (fun _ _ => exTile) (exOne.run ⟨0, none⟩ [(fun _ _ => exTile, ⟨1, 1, [3], [1, 2, 3]⟩),
      (fun _ _ => exTile, ⟨1, 2, [2], [1, 2, 7, 8]⟩)]) ⟨1, 1, [4], [1, 2, 3, 4]⟩).2 = .ok ([1, 1, 2], [21, 32]) ∧
    (exOne.forwardI (fun _ _ => exTile) (exOne.run ⟨0, none⟩ [(fun _ _ => exTile, ⟨1, 1, [3], [1, 2, 3]⟩)])
      ⟨1, 1, [4], [1, 2, 3, 4]⟩).2 = .ok ([1, 1, 3], [21, 32, 43]) := by
  decide +kernel

end Aihw.Conv
