import Verif.GpuPost.Model

/-!
# Specification of clipping and remapping on the GPU
-/
namespace Aihw.GpuPost

/-- The weight matrix (outputs times inputs) in column-major memory. -/
def matrix {K : Type} (d x : ℕ) (mem : ℕ → K) : List (List K) :=
  (List.range d).map fun i => (List.range x).map fun j => mem (j * d + i)

/-- Logical weight from input `j` to output `i`: analog weight times digital scale. -/
def logical (d : ℕ) (w : Arr) (s : Vec) (i j : ℕ) : ℚ := w (j * d + i) * s.getD i 0

end Aihw.GpuPost
