import Verif.IrDrop.Props2

/-!
# Concrete cases for C69 and C70
-/
namespace Aihw.IrDrop
open Aihw.Inference

/-- Two segments of two rows. -/
def exP (rs : ℚ) (sum : Bool) : Pars ℚ :=
  { rs := rs, vRead := 4 / 10, segments := 2, phys := 4, integrationSum := sum, adc := false, adcFreq := 1 }

/-- The single-pair converter with the range `[0, 25]`. -/
def exConv : Conv ℚ := fun w => (singleTo 25 0 w).map fun g => ([1], g.1, g.2)

/-- Three bits, a `2 × 2` weight. -/
def exJob (ir : Option (Pars ℚ × Conv ℚ)) : Job ℚ :=
  { ir := ir, inpRes := 1 / 6, inpBound := 1, tScale := 1, cols := 2, w := [[1, -1], [1 / 2, 1 / 4]] }

/-- Smallest component, for showing results. -/
def near (r : Except PyErr (Bool × List ℚ)) (y : List ℚ) : Bool :=
  match r with
  | .ok v => v.1 && v.2.length == y.length && (List.zipWith (fun a b => decide (|a - b| < 1 / 1000000)) v.2 y).all id
  | .error _ => false

/-- The hypotheses of the theorems hold. -/
theorem ex_conv : ConvExact exConv := C70_single_pair_exact 25 0 (by decide +kernel)

theorem ex_fits (rs : ℚ) (h : 0 ≤ rs) (sum : Bool) : Fits (exP rs sum) := ⟨by simp [exP], by simp [exP], by simp [exP], h⟩

example : getRes (1 / 6 : ℚ) = .ok (1 / 6) := by decide +kernel
example : (1 : ℚ) / (1 / 6) + 2 = 2 ^ 3 := by norm_num

/-- Inputs on the grid. -/
example : ([1, -1 / 3] : List ℚ).getD 0 0 = (3 : Int) * (2 * (1 / 6)) ∧ ([1, -1 / 3] : List ℚ).getD 1 0 = (-1 : Int) * (2 * (1 / 6)) := by
  norm_num

-- The ideal product, and the read-outs without wire resistance.
example : compute (exJob none) .onePass idle [1, -1 / 3] = .ok (true, [5 / 6, -13 / 12]) := by decide +kernel
example : compute (exJob none) (.split 1) idle [1, -1 / 3] = .ok (true, [5 / 6, -13 / 12]) := by decide +kernel
example : compute (exJob none) .bitWise idle [1, -1 / 3] = .ok (true, [5 / 6, -13 / 12]) := by decide +kernel
example : near (compute (exJob (some (exP 0 true, exConv))) .onePass idle [1, -1 / 3]) [5 / 6, -13 / 12] = true := by decide +kernel
example : near (compute (exJob (some (exP 0 true, exConv))) .bitWise idle [1, -1 / 3]) [5 / 6, -13 / 12] = true := by decide +kernel

-- Trapezoidal integration: half a step too long, and 1.5 times too large bit by bit.
example : near (compute (exJob (some (exP 0 false, exConv))) .onePass idle [1, -1 / 3]) [11 / 12, -31 / 24] = true := by decide +kernel
example : near (compute (exJob (some (exP 0 false, exConv))) .bitWise idle [1, -1 / 3]) [5 / 4, -13 / 8] = true := by decide +kernel

-- Split and bits.
example : splitInput (1 / 6 : ℚ) 1 [1, -1 / 3] = .ok ([1 / 3, -1 / 3], [1 / 3, 0]) := by decide +kernel
example : splitInput (1 / 8 : ℚ) 1 [1] = .error .configError := by decide +kernel
example : bitInputs (1 / 6 : ℚ) [1, -1 / 3] = [[1 / 3, -1 / 3], [1 / 3, 0]] := by decide +kernel
-- The largest input is lost for a resolution of another form (`1 / 8`).
example : bitInputs (1 / 8 : ℚ) [1] = [[0], [0]] := by decide +kernel

example : adcQuant (3 : ℚ) 70 = 200 / 3 := by decide +kernel

/-- The mode theorem applies to this job. -/
example : ∃ (pairs : Nat) (share a : Nat → Nat → Nat → ℚ), Drop 5 2 2 [[1, -1], [1 / 2, 1 / 4]] pairs share a := by
  obtain ⟨pairs, share, a, -, h, -⟩ := C70_modes (exJob (some (exP 5 false, exConv))) (exP 5 false) exConv rfl (ex_fits 5 (by norm_num) false) rfl
    ex_conv (1 / 6) (by decide +kernel) 3 (by norm_num) rfl rfl (by decide) (by decide) 2 rfl (by decide) (by decide) (by decide) (1 / 2) (by simp [exP])
  exact ⟨pairs, share, a, h⟩

-- One row missing, odd columns, segments that do not divide.
example : (matmulIr { exP 0 true with phys := 3, segments := 3 } exConv 6 2 [[1, 1], [1, 1]] 1 4 [1, 1]) = .error .indexError := by decide +kernel
example : (matmulIr (exP 0 true) exConv 6 3 [[1, 1, 1], [1, 1, 1]] 1 4 [1, 1]) = .error .runtimeError := by decide +kernel
example : (matmulIr { exP 0 true with phys := 5 } exConv 6 2 [[1, 1], [1, 1]] 1 4 [1, 1]) = .error .assertion := by decide +kernel

end Aihw.IrDrop
