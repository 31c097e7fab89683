import Verif.CppFwd.Props
import Verif.CppFwd.Props2
import Verif.CppFwd.Props3
import Verif.CppFwd.Nonideal

/-!
# Concrete passes which meet the hypotheses of C61–C63 (rational numbers, kernel computation)
-/

namespace Aihw.CppFwd

/-- A noise-free pass with bounds 1 and 2, absolute-maximum noise management, iterative bound management. -/
def exIO : IO ℚ :=
  { perfect := false, mvType := .onePass, wNoiseType := .none, irDrop := 0, gRatio := 100, vOffStd := 0,
    vOffVec := [], vOffWMin := 0, rSeries := 0, rMaxTotal := 10, inpAsym := 0, outAsym := 0, wReadAsym := 0,
    inpBound := some 1, inpRes := 0, inpSto := false, inpNoise := 0, outNoise := 0, outNoiseStd := 0,
    wNoise := 0, outBound := some 2, outRes := 0, outSto := false, outScale := 1, outNL := 0, outNLStd := 0,
    outNLVec := [], slope := 0, nm := .absMax, nmThres := 0, nmWmax := 1, nmDecay := 1 / 100,
    bm := .iterative, bmTestNeg := true, maxBmFactor := 10, maxBmRes := 1 / 4 }

/-- No stored parameters. -/
def exPar : MVPar ℚ := ⟨fun _ => 0, fun _ => 0, 1, fun _ _ => 1, fun _ => 0⟩

/-- Three inputs, two outputs. -/
def exPass : Pass ℚ := ⟨3, 2, exIO, { exIO with bm := .none, outBound := none }, exPar, exPar⟩

/-- Weights. -/
def exW (i j : Nat) : ℚ := ((([[1, 2, 3], [-4, 5, -6]] : List (List ℚ)).getD i []).getD j 0)

/-- Inputs. -/
def exX (j : Nat) : ℚ := ([2, -1, 1 / 2] : List ℚ).getD j 0

/-- Random numbers, different in every round. -/
def exDr (_ : Nat) : Draws ℚ := ⟨fun _ => 1 / 4, fun _ => 1, fun _ _ => 1, fun _ _ => 3 / 4, fun _ _ => -1⟩

/-- The outputs of a forward pass, as a list. -/
def outs (r : Except PyErr ((Nat → ℚ) × ℚ)) (n : Nat) : List ℚ :=
  match r with
  | .ok (y, _) => (List.range n).map y
  | .error _ => []

/-- C61_exact: bound management needs a second and third round (largest output 16 / 2 = 8 > 2), the result is
exactly the product. -/
example : outs (exPass.forward (fun _ => 0) exW 1 exDr exX (-1)) 2 = [3 / 2, -16] := by decide +kernel

example : Clean exIO :=
  { perfect := rfl, mv := Or.inl rfl, inpRes := le_rfl, inpNoise := le_rfl, inpAsym := rfl, outRes := le_rfl,
    outNoise := rfl, outNoiseStd := le_rfl, outAsym := le_rfl, outNL := le_rfl, outNLVec := rfl,
    irDrop := le_rfl, vOffStd := le_rfl, vOffVec := rfl, rSeries := le_rfl, wNoise := Or.inl rfl, wReadAsym := le_rfl }

/-- With the bound management off the same output is clipped at the bound: the hypothesis `hout` matters. -/
example : outs (({ exPass with f := { exIO with bm := .none } } : Pass ℚ).forward (fun _ => 0) exW 1 exDr exX
    (-1)) 2 = [3 / 2, -4] := by decide +kernel

/-- With converters and noise. -/
def exNoisy : Pass ℚ :=
  { exPass with
    f := { exIO with inpRes := 1 / 4, outRes := 1 / 8, outNoise := 1 / 3, inpNoise := 1 / 5, maxBmRes := 2 } }

/-- C61_homogeneous with quantizers and noise: three times the input, three times the output, for inputs not
on the grid. -/
example : outs (exNoisy.forward (fun _ => 0) exW 1 exDr exX (-1)) 2 = [14, -22] ∧
    outs (exNoisy.forward (fun _ => 0) exW 1 exDr (fun j => 3 * exX j) (-1)) 2 = [42, -66] := by decide +kernel

/-- C61_backward: the transposed product, exactly. -/
example : outs (exPass.backward (fun _ => 0) exW 1 (exDr 0) (fun i => if i = 0 then 3 else -2) (-1)) 3 =
    [11, -4, 21] := by decide +kernel

/-- C61_nm_value: a maximum with negative inputs only makes the value negative, and the output is zero although the
product is not. -/
example : outs (({ exPass with f := { exIO with nm := .max } } : Pass ℚ).forward (fun _ => 0) exW 1 exDr
    (fun _ => -1) (-1)) 2 = [0, 0] := by decide +kernel

/-- C61_average: the first call stores its peak, the second moves one percent towards its own. -/
example : ({ exIO with nm := .average } : IO ℚ).computeNM 3 exX (-1) = .ok (2, 2) ∧
    ({ exIO with nm := .average } : IO ℚ).computeNM 3 (fun j => 3 * exX j) 2 = .ok (51 / 25, 51 / 25) := by
  constructor <;> decide +kernel

/-- C61_npSum: the value exceeds the absolute maximum. -/
example : ({ exIO with nm := .absMaxNPSum, nmWmax := 3 } : IO ℚ).computeNM 3 exX 7 = .ok (15 / 4, 7) := by
  decide +kernel

/-- C62_result: the last round allowed by the factor limit is used although it still overflows. -/
example : outs (({ exPass with f := { exIO with maxBmFactor := 1 } } : Pass ℚ).forward (fun _ => 0) exW 1 exDr
    exX (-1)) 2 = [3 / 2, -8] := by decide +kernel

/-- C62_terminates: a mode without implementation raises. -/
example : (match ({ exPass with f := { exIO with mvType := .bitWise } } : Pass ℚ).forward (fun _ => 0) exW 1 exDr
    exX (-1) with
    | .ok _ => none
    | .error e => some e) = some .runtimeError := by decide +kernel

/-- C62_negative_forgets: output 0 is above the bound and output 1 below: the test passes. -/
example : ({ exIO with bmTestNeg := false } : IO ℚ).boundTest 2 (fun i => if i = 0 then 5 else -5) = true ∧
    ({ exIO with bmTestNeg := false } : IO ℚ).boundTest 2 (fun i => if i = 0 then -5 else 5) = false ∧
    exIO.boundTest 2 (fun i => if i = 0 then 5 else -5) = false := by decide +kernel

/-- C62_worstCase_repeats: the hypotheses hold of a legal configuration. -/
example : ({ exIO with nm := .none, bm := .worstCase } : IO ℚ).divisor 3 exX 1 1 = 1 ∧
    ({ exIO with nm := .none, bm := .worstCase } : IO ℚ).divisor 3 exX 1 2 = 2 := by decide +kernel

/-- C63_ir_drop: an output is lowered. -/
example : ({ exIO with irDrop := 1 } : IO ℚ).singlePass (fun _ => 0) exPar 2
    (fun _ _ => 1) (fun _ => 1) (fun _ => 0) 0 = 2481547 / 1250000 := by decide +kernel

/-- C63_voltage: series resistance lowers the output. -/
example : ({ exIO with rSeries := 1 / 2 } : IO ℚ).voltage { exPar with vOff := fun _ => 1 / 4 } 3 exX (fun _ => 2) 0 =
    3 / 4 := by decide +kernel

/-- C63_voltage_ref: with a reference the offset does not cancel. -/
example : ({ exIO with vOffStd := 1, vOffWMin := -1 } : IO ℚ).voltage { exPar with vOff := fun _ => 1 / 4 } 3 exX
    (fun _ => 2) 0 = 3 / 4 := by decide +kernel

/-- C63_weight_noise: with a root of 1 for 21/4 the additive noise is its size. -/
example : ({ exIO with wNoiseType := .additive, wNoise := 1 / 10 } : IO ℚ).weightNoise (fun _ => 2) 3 exW exX
    (fun _ => 3) (fun _ => 1) 0 = 8 / 5 := by decide +kernel

/-- C63_input_stage: 0.3 becomes 0.25 by the quantizer, 0.45 by the noise; -0.3 becomes -0.25 + 0.2 and then is
scaled by 1 - 1/2. -/
example : ({ exIO with inpRes := 1 / 4, inpNoise := 1 / 5, inpAsym := 1 / 2 } : IO ℚ).prepare 1 true 0 1 (3 / 10) = 9 / 20 ∧
    ({ exIO with inpRes := 1 / 4, inpNoise := 1 / 5, inpAsym := 1 / 2 } : IO ℚ).prepare 1 true 0 1 (-3 / 10) = -1 / 40 := by
  decide +kernel

/-- C63_init: a step number 8 becomes the step 1/8 of the range 2. -/
example : (match initIO true 2 { exIO with inpRes := 8, outRes := 1 / 16, nmThres := 3 } with
    | .ok r => some (r.inpRes, r.outRes, r.nmThres, r.inpBound, r.outBound)
    | .error _ => none) = some (1 / 4, 1 / 4, 3, some 1, some 2) := by decide +kernel

/-- C63_init raises: noise management with another input bound. -/
example : (match initIO true 2 { exIO with inpBound := some 2 } with
    | .ok _ => none
    | .error e => some e) = some .runtimeError := by decide +kernel

/-- C63_nl_vector_ignored: three non-linearities for two outputs are silently replaced. -/
example : (List.range 2).map (populate { exIO with outNL := 1, outNLVec := [7, 7, 7] } 2
    ⟨fun _ => 0, fun _ => 0, fun _ _ => 0, fun _ => 0⟩).nl = [1 / 2, 1 / 2] := by decide +kernel

end Aihw.CppFwd
