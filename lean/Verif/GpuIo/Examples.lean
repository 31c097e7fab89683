import Verif.GpuIo.Scales
import Verif.GpuNm.Examples
import Verif.CppFwd.Examples

/-!
# Concrete cases for C99
-/
namespace Aihw.GpuIo

open Aihw.GpuNm (place Man Req)

-- C99_stride_loop: three threads, eight elements.
example : visits 3 8 = [0, 3, 6, 1, 4, 7, 2, 5] := by decide +kernel

example : (List.range 9).map (loopIn (visits 3 8).reverse (fun i v => v + (i : ℚ)) fun _ => 10) =
    [10, 11, 12, 13, 14, 15, 16, 17, 10] := by decide +kernel

/-- Two inputs, two outputs, batch of two, inputs with the batch dimension first and outputs last. -/
def exCtx (io : CppFwd.IO ℚ) (m : ℕ) : Ctx ℚ :=
  { xSz := 2, dSz := 2, m := m, tr := false, inT := true, outT := false,
    W := fun i => [1, 3, 2, -4].getD i 0, io := io, p := CppFwd.exPar, alpha := 1 }

/-- Noise management with the maximum. -/
def plain : CppFwd.IO ℚ := { CppFwd.exIO with bm := .none, outBound := none }

def exDraws : Draws ℚ := ⟨fun _ => 1 / 2, fun _ => 0, fun _ _ => 0, fun _ _ => 1 / 2, fun _ _ => 0⟩

def exR (m : ℕ) : Req ℚ :=
  { GpuNm.exReq m false with input := fun i => [1, 2, -2, 4].getD i 0 }

def exX : Arr ℚ := fun i => [1, 2, -2, 4].getD i 0

def exS : St ℚ :=
  ⟨Man.new fun _ => 99, fun _ => 99, fun _ => true, true, 7, 9, true, fun _ => 99, fun _ => 99⟩

/-- The outputs of a pass and the reduction of its last round. -/
def outs (io : CppFwd.IO ℚ) (m fuel : ℕ) : Option (List ℚ × ℚ) :=
  match (exCtx io m).pass 4 (-1000) (fun v => v) (fun _ => exDraws) (fun _ _ => 99) (fun _ => exR m) fuel exX
    (fun _ => 99) exS with
  | .ok z => some ((List.range (2 * m + 1)).map z.1, z.2.red)
  | .error _ => none

-- C99_pass, C99_forward_as_cpu: samples (1, -2) and (2, 4); nothing else is written.
example : outs plain 2 1 = some ([-3, 11, 10, -10, 99], 1 / 2) := by decide +kernel

example : (plain.inpNoise ≤ 0 ∨ plain.inpBound = none) ∧ SameOut plain false ∧ plain.isPerfect = false := by
  refine ⟨Or.inl ?_, ⟨?_, ?_, Or.inl rfl⟩, rfl⟩ <;> decide +kernel

/- C99_product: layouts. -/
example : (List.range 5).map ((exCtx plain 2).product (exCtx plain 2).W exX (fun _ => 99) 1) =
    [-3, 11, 10, -10, 99] := by decide +kernel

-- C99_bound: output bound 2; the first sample needs three rounds, the second two.
example : outs CppFwd.exIO 2 12 = some ([-3, 11, 10, -10, 99], 4) := by decide +kernel

example : (List.range 3).map (fun k => (List.range 2).map fun b => (exCtx CppFwd.exIO 2).over (fun v => v)
    (fun _ => exDraws) exX (((Man.new fun _ => 99).compute 2 4 (-1000) .absMax CppFwd.exIO (exR 2)).toOption.getD (Man.new fun _ => 99)) b k) =
    [[true, true], [true, false], [false, false]] := by decide +kernel

-- The negative bound is tested for a batch, and not for a single sample (and vice versa).
example : ((exCtx CppFwd.exIO 2).counts (-3), (exCtx CppFwd.exIO 1).counts (-3)) = (true, false) := by
  decide +kernel

example : ((exCtx { CppFwd.exIO with bmTestNeg := false } 2).counts (-3),
    (exCtx { CppFwd.exIO with bmTestNeg := false } 1).counts (-3)) = (false, true) := by decide +kernel

-- C99_scale_without_management: three rounds that exceed the bound.
example : (List.range 5).map (Spec.scaleAt false (none : Option ℚ) fun _ _ => true) = [1, 2, 8, 64, 1024] := by
  decide +kernel

example : (List.range 5).map (Spec.scaleAt false (some 3 : Option ℚ) fun k _ => k == 1) = [3, 3, 12, 12, 12] := by
  decide +kernel

-- C99_lost_inputs: separate passes; one round gives the outputs of all inputs, more rounds lose the
-- positive inputs: the samples (1, -2) and (2, 4) become (0, -2) and (0, 0).
example : outs { CppFwd.exIO with mvType := .posNeg, outBound := none } 2 12 =
    some ([-3, 11, 10, -10, 99], 1) := by decide +kernel

example : outs { CppFwd.exIO with mvType := .posNeg } 2 12 = some ([-4, 8, 0, 0, 99], 2) := by
  decide +kernel

example : outs { CppFwd.exIO with mvType := .posNegDigital } 2 12 = some ([-4, 8, 0, 0, 99], 2) := by
  decide +kernel

end Aihw.GpuIo
