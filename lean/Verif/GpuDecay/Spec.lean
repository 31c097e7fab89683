import Verif.GpuDecay.Model

/-!
# Specification of the operations on the weights on the GPU
-/
namespace Aihw.GpuDecay

open Aihw.Pulsed

variable {K : Type} [Field K] [LinearOrder K] [IsStrictOrderedRing K] [FloorRing K]

/-- The cell of the CPU's device that connects input `j` with output `i`. -/
def cellAt (c : Dev K) (i j : ℕ) : Cell K := c.cell (i * c.xSize + j)

/-- A value within the bounds of the cell. -/
def bounded (c : Cell K) (v : K) : K := max c.minB (min c.maxB v)

/-- The weight that the device keeps for input `j` and output `i`: the persistent one, if the device has them. -/
def kept (c : Dev K) (m : Mem K) (i j : ℕ) : K :=
  if persistent c.kd c.par then m.per (j * c.dSize + i) else m.vis (j * c.dSize + i)

/-- The first `cols` columns from column `start` on, wrapping around at `x`; all of them if `cols < 0`. -/
def InColumns (x start : ℕ) (cols : ℤ) (j : ℕ) : Prop := cols < 0 ∨ ∃ q : ℕ, (q : ℤ) < cols ∧ j = (start + q) % x

end Aihw.GpuDecay
