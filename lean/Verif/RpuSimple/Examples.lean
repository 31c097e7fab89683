import Verif.RpuSimple.Samples
import Mathlib.Algebra.Field.Rat

/-!
# C87 and C88: a concrete tile

Two outputs, three inputs of which the last is the bias: `W = [[1, 2, 10], [3, 4, 20]]`, learning rate 1/2.
-/
namespace Aihw.RpuSimple.Examples
open Aihw Aihw.RpuSimple Finset

/-- The weights. -/
def wEx : Mem ℚ := fun p => [1, 2, 10, 3, 4, 20].getD p 0

/-- The tile. -/
def tEx : Rpu ℚ := ⟨3, 2, wEx, none, false, 1, 1, 1 / 2, none⟩

/-- Two vectors `(1, 1)` and `(0, 5)`. -/
def xEx : Mem ℚ := fun p => [1, 1, 0, 5].getD p 0

/-- The same two vectors, transposed. -/
def xtEx : Mem ℚ := fun p => [1, 0, 1, 5].getD p 0

/-- Errors `(1, 0)` and `(2, 1)`. -/
def dEx : Mem ℚ := fun p => [1, 0, 2, 1].getD p 0

/-- Unset memory. -/
def junk : Mem ℚ := fun _ => 77

/-- The first cells of a memory. -/
def cells (n : ℕ) (a : Mem ℚ) : List ℚ := (List.range n).map a

/-- Without modified weights the passes use the weights. -/
example (b : Bool) : Passes tEx b wEx := ⟨fun _ => rfl, fun f h => by cases h⟩

/-- Forward with bias, two layouts. -/
example : cells 5 (forward tEx junk xEx junk true 2 false false false) = [13, 27, 20, 40, 77] ∧
    cells 5 (forward tEx junk xtEx junk true 2 true true false) = [13, 20, 27, 40, 77] := by
  constructor <;> decide +kernel

/-- Backward with bias. -/
example : cells 5 (backward tEx junk dEx junk true 2 false false) = [1, 2, 5, 8, 77] := by decide +kernel

/-- An update. -/
example : cells 6 (update tEx junk xEx dEx true 2 false false).w = [1 / 2, -7 / 2, 17 / 2, 3, 3 / 2, 39 / 2] := by
  decide +kernel

/-- Different layouts: five vectors of two numbers give a result of dimensions `[2, 2]` for ten numbers. -/
example : (tileForward tEx junk [5, 2] junk junk true false true false).map (·.1) = .ok [2, 2] := by decide +kernel

/-- A device that halves every change of the weights and counts the updates. -/
def devEx : Dev ℚ ℕ := fun st w x d lr => (st + 1, fun p => if p < 6 then w p - lr / 2 * d (p / 3) * x (p % 3) else w p)

example : Inside devEx tEx.xSz tEx.dSz := by
  intro st w x d lr p hp
  show (if p < 6 then _ else _) = _
  rw [if_neg (by simp [tEx] at hp; omega)]

/-- The gradient with these devices is half of the true one; the devices have seen two updates. -/
example : (sharedGrad false devEx tEx 0 junk junk [2, 2] [2, 2] xEx dEx true false false).map
    (fun r => (r.1.map (cells 6), r.2.2)) = .ok (some [1 / 2, 11 / 2, 3 / 2, 0, 5 / 2, 1 / 2], 2) := by decide +kernel

/-- The exact gradient. -/
example : (sharedGrad true devEx tEx 0 junk junk [2, 2] [2, 2] xEx dEx true false false).map
    (fun r => (r.1.map (cells 6), r.2.2)) = .ok (some [1, 11, 3, 0, 5, 1], 0) := by decide +kernel

/-- With learning rate zero, the gradient is what was in the memory. -/
example : (sharedGrad true devEx { tEx with lr := 0 } 0 junk junk [2, 2] [2, 2] xEx dEx true false false).map
    (fun r => (r.1.map (cells 6), r.2.2)) = .ok (some [77, 77, 77, 77, 77, 77], 0) := by decide +kernel

/-- These devices read three inputs and two errors. -/
example : Reads devEx tEx.xSz tEx.dSz := by
  intro st w x x' d d' lr hx hd
  show (_, _) = (_, _)
  congr 1
  funext p
  show (if p < 6 then _ else _) = (if p < 6 then _ else _)
  by_cases hp : p < 6
  · rw [if_pos hp, if_pos hp, hx (p % 3) (by simp [tEx]; omega), hd (p / 3) (by simp [tEx]; omega)]
  · rw [if_neg hp, if_neg hp]

/-- Two transposed samples are accepted, and the devices have seen both. -/
example : (pTileUpdate false devEx tEx 0 junk [2, 2] [2, 2] xEx dEx true true true).map (·.2) = .ok 2 := by
  decide +kernel

end Aihw.RpuSimple.Examples
