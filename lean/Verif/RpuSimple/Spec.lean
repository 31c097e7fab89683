import Verif.RpuSimple.Model

/-!
# Specification of the passes of the floating-point tile
-/
namespace Aihw.RpuSimple
open Aihw Finset

variable {K : Type} [Field K]

/-- Where component `j` of vector `b` is, of `m` vectors with `n` components: one after the other, or transposed. -/
def pos (tr : Bool) (m n b j : ℕ) : ℕ := if tr then j * m + b else b * n + j

/-- Entry `(i, j)` of the weight matrix. -/
def entry (t : Rpu K) (w : Mem K) (i j : ℕ) : K := w (i * t.xSz + j)

/-- The number of inputs: the last column of the weights is the bias, if there is one. -/
def nIn (t : Rpu K) (bias : Bool) : ℕ := if bias then t.xSz - 1 else t.xSz

/-- Component `j` of input `b`, extended by one if there is a bias. -/
def xin (t : Rpu K) (X : Mem K) (bias : Bool) (m : ℕ) (xT : Bool) (b j : ℕ) : K :=
  if bias ∧ j = t.xSz - 1 then 1 else X (pos xT m (nIn t bias) b j)

/-- The weights of the forward pass: the modified ones in training, and in evaluation if the modifier asks for it. -/
def Passes (t : Rpu K) (isTest : Bool) (w : Mem K) : Prop :=
  (t.fb = none → w = t.w) ∧
    ∀ f, t.fb = some f → (isTest = false ∨ t.fbTest = true → w = f) ∧ (isTest = true → t.fbTest = false → w = t.w)

/-- The outer product of errors and inputs, summed over the batch. -/
def outer (t : Rpu K) (X D : Mem K) (bias : Bool) (m : ℕ) (xT dT : Bool) (i j : ℕ) : K :=
  ∑ b ∈ range m, D (pos dT m t.dSz b i) * xin t X bias m xT b j

end Aihw.RpuSimple
