import Verif.PostUpdate.ModifierProps2

/-!
# Examples for C42
-/
namespace Aihw.PostUpdate.Modifier

/-- Non-vacuity: a history in which training uses weights that were overwritten. -/
example :
    let d : Draws := ⟨fun _ _ => 1, fun _ _ => 0, fun _ _ => 1⟩
    let p : ModPars := { type := .addNormal, stdDev := 1 / 2 }
    let h : List Act := [.write [[1, -2]], .postUpdate p d, .write [[5, 5]], .postUpdate { type := .none } d]
    let t := h.foldl act ⟨[[0, 0]], none, false⟩
    (Act.postUpdate p d).effective ∧ ¬ (Act.postUpdate { type := .none } d).effective ∧
    fbWeights t true = [[5, 5]] ∧ fbWeights t false = [[2, -1]] := by
  refine ⟨⟨by decide, by decide⟩, fun h => h.1 rfl, ?_, ?_⟩ <;> decide +kernel

example :
    applyMod { type := .progNoise, stdDev := 1, coeffs := [1, 2], copyLastColumn := true, pdrop := 1 / 2 }
      ⟨fun _ _ => -100, fun _ _ => 0, fun _ j => if j = 0 then 0 else 1⟩ [[1, -2, 4], [1 / 2, 0, 1]] = [[0, -26, 4], [0, 8, 1]] := by
  decide +kernel

/-! ## Non-vacuity -/

example : IsRefMax { type := .addNormal, copyLastColumn := true } [[1, -2, 4], [0, 1, 9]] 2 := by
  have h := amaxOf_isRefMax { type := .addNormal, copyLastColumn := true } (by decide) [[1, -2, 4], [0, 1, 9]]
  have e : amaxOf { type := .addNormal, copyLastColumn := true } [[1, -2, 4], [0, 1, 9]] = 2 := by decide +kernel
  rwa [e] at h

example : applyMod { type := .discretizeAddNormal, stdDev := 1 / 4, res := 1 / 2, copyLastColumn := true }
    ⟨fun _ _ => 1, fun _ _ => 0, fun _ _ => 0⟩ [[1, -2, 4], [0, 3 / 4, 9]] =
      [[3 / 2, -3 / 2, 4], [1 / 2, 3 / 2, 9]] := by decide +kernel

end Aihw.PostUpdate.Modifier
