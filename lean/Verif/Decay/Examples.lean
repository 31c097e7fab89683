import Verif.Decay.Props2

/-!
# C89: concrete cases
-/
namespace Aihw.Decay.Ex
open Aihw Aihw.Pulsed Aihw.Decay

/-- Dummy C library. -/
def F : Fns ℚ := ⟨fun _ => 0, fun b _ => if b < 0 then .nan else .fin b⟩

/-- Construction parameters: range [-1, 1], lifetime 4, diffusion 1/8, reset 1/4. -/
def pop : PopPar ℚ :=
  ⟨-1, 1, 0, 0, 1/8, 0, false, 0, 0, false, false, 0, 0, 0, false, 4, 0, 1/8, 0, 1/4, 0⟩

/-- No variations. -/
def dr : PopDraw ℚ := ⟨0, 0, 0, 0, 1, 0, 0, 0, 0⟩

/-- The constructed cell. -/
def c0 : Cell ℚ := (populateCell (fun x => x) (fun x => x) pop false dr).toOption.getD ⟨0, 0, 0, 0, 0, 0, 0, 0, 0, 0, 0, 0⟩

example : populateCell (fun x => x) (fun x => x) pop false dr = .ok c0 ∧ c0.decay = 3/4 ∧ c0.diff = 1/8 ∧ c0.resetB = 1/4 := by
  refine ⟨rfl, ?_, ?_, ?_⟩ <;> decide +kernel

/-- Two by three devices with weight 1/2. -/
def d0 : Dev ℚ := Dev.create .constant ⟨1/8, 0, 0, 0, false⟩ 3 2 (fun _ => c0) (fun _ => 1/2) (fun _ => 0)

def z : Nat → Nat → ℚ := fun _ _ => 0

def one : Nat → Nat → ℚ := fun _ _ => 1

/-- Weights after calls, or a mark. -/
def after (t : Tile ℚ) (cs : List (Call ℚ)) : List ℚ := match t.run F cs with
  | .ok t => (List.range 6).map t.weights
  | .error _ => [77]

/-- C89_decay: the hypotheses, and two decays with scales 1 and 2: 1/4 + 1/4 · 3/4 · 1/2. -/
example : Within d0 0 (d0.cell 0).resetB ∧ Within d0 0 (d0.weight 0) ∧ 0 ≤ (2 : ℚ) * (1 - (d0.cell 0).decay) ∧
    (2 : ℚ) * (1 - (d0.cell 0).decay) ≤ 1 := by
  refine ⟨⟨?_, ?_⟩, ⟨?_, ?_⟩, ?_, ?_⟩ <;> decide +kernel

example : after (.pulsed d0) (decays [(1, z), (2, z)]) = List.replicate 6 (1/4 + 1/4 * (3/4) * (1/2)) := by decide +kernel

/-- C89_float, C89_short_lifetime. -/
example : after (.ideal ⟨4, 0, 0⟩ 3 fun _ => 1/2) (decays [(1, z), (2, z), (5, z)]) = List.replicate 6 (1/2 * (3/4) * (1/2)) ∧
    after (.float ⟨1, 0, 0⟩ fun _ => 1/2) (decays [(1, z)]) = List.replicate 6 (1/2) := by decide +kernel

/-- C89_diffuse. -/
example : after (.pulsed d0) (diffusions [(one, z), (one, z)]) = List.replicate 6 (3/4) ∧
    after (.pulsed d0) (diffusions [(fun _ _ => 10, z)]) = List.replicate 6 1 := by decide +kernel

/-- C89_reset_columns: two columns from the last one on. -/
example : after (.pulsed d0) [.reset 2 2 1 z z z] = [1/4, 1/2, 1/4, 1/4, 1/2, 1/4] ∧
    after (.pulsed d0) [.reset 4 1 1 z z z] = [1/4, 1/4, 1/2, 1/4, 1/4, 1/2] ∧
    after (.pulsed d0) [.reset (-1) 1 1 z z z] = List.replicate 6 (1/2) ∧
    after (.pulsed d0) [.resetAll 1 z z z] = List.replicate 6 (1/4) ∧
    after (.float ⟨1, 0, 0⟩ fun _ => 1/2) [.resetAll 1 z z z] = [77] := by decide +kernel

/-- C89_reset_ideal: reset noise 1/8. -/
example : after (.ideal ⟨4, 0, 1/8⟩ 3 fun _ => 1/2) [.reset 2 2 1 z one z] = [1/8, 1/2, 1/8, 1/8, 1/2, 1/8] := by decide +kernel

/-- A unit cell of two devices, of which only the first decays. -/
def d1 : Dev ℚ := Dev.create .constant ⟨1/8, 0, 0, 0, false⟩ 3 2 (fun _ => { c0 with decay := 1, diff := 0 })
  (fun _ => 1/2) (fun _ => 0)

def vp : VPar ℚ := ⟨2, .all, 0, fun j => if j = 0 then 1 else 2⟩

def vs : VS ℚ := vp.reduce ⟨fun j => if j = 0 then d0 else d1, 0, 0, fun _ => 0⟩

/-- C89_vector, C89_transfer_reset, C89_hidden. -/
example : (∀ k, vs.vis k = weighted vp vs k) ∧
    after (.vector vp vs) (decays [(1, z)]) = List.replicate 6 (1/4 + 1/4 * (3/4) + 2 * (1/2)) ∧
    after (.transfer true vp vs) [.resetAll 1 z z z] = List.replicate 6 (3/2) ∧
    after (.transfer false vp vs) [.resetAll 1 z z z] = List.replicate 6 (1/4 + 2 * (1/2)) ∧
    after (.transfer true vp { vs with vis := fun _ => 3/4 }) (decays [(1, z)]) = List.replicate 6 (3/4) := by
  refine ⟨fun _ => rfl, ?_⟩
  decide +kernel

/-- C89_post_update, C89_batches: the device is constructed with lifetime 4. -/
example : Constructed (4 : ℚ) (1/8) d0 := fun _ => ⟨fun x => x, fun x => x, pop, false, dr, rfl, rfl, rfl⟩

example : ((PyDev.unitCell [.simple 0 0, .simple 4 0]).calls (⟨z, z, z⟩ : Draws ℚ)).length = 1 := by decide +kernel

end Aihw.Decay.Ex
