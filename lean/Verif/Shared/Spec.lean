import Verif.Shared.Model

/-!
# Specification: one matrix

The abstract tile of the user: a single matrix, changed by the calls as the documentation says.
-/

namespace Aihw.Shared

open Aihw

variable {K : Type}

/-- Is the matrix of the size `d × x`? -/
def Fits (b : Buf K) (d x : ℕ) : Prop := b.d = d ∧ b.x = x

/-- What a call does to the one matrix of a `d × x` tile; `hasParam`: the tile was built with
`shared_weights=True`, so that the parameter is the same matrix. -/
noncomputable def cell (hasParam : Bool) (d x : ℕ) (m : List K) : Op K → List K
  | .setWeights v => open Classical in if Fits v d x then v.val else m
  | .rawSet v => open Classical in if Fits v d x then v.val else m
  | .inPlace f => f m
  | .optim f => if hasParam then f m else m
  | .reload v _ _ => v.val
  | _ => m

/-- The calls of an ordinary program: no memory of the user is put behind the parameter, and states
that are loaded fit the tile. -/
def Plain (d x : ℕ) : Op K → Prop
  | .assign _ => False
  | .forward arg => arg = none
  | .backward arg => arg = none
  | .reload v _ no => Fits v d x ∧ no = false
  | _ => True

/-- The matrix after a list of calls. -/
noncomputable def cells (hasParam : Bool) (d x : ℕ) : List K → List (Op K) → List K
  | m, [] => m
  | m, o :: os => cells hasParam d x (cell hasParam d x m o) os

/-- The tensors a call is given by the user. -/
def Op.args : Op K → List ℕ
  | .assign i => [i]
  | .forward (some i) => [i]
  | .backward (some i) => [i]
  | _ => []

/-- The tensors given to a call exist. -/
def Given (h : Heap K) (o : Op K) : Prop := ∀ i ∈ o.args, i < h.next ∧ i ∉ h.dead

/-- The same for each call of a history, at the time of the call. -/
def AllGiven [Inhabited K] (zero : K) : Wrap → Heap K → List (Op K) → Prop
  | _, _, [] => True
  | w, h, o :: os =>
    Given h o ∧ AllGiven zero (step zero w h o).2.1 (step zero w h o).2.2 os

/-- The addresses a wrapper knows. -/
def Knows (w : Wrap) (a : ℕ) : Prop :=
  a = w.tile.ptr ∨ w.bound = some a ∨ w.param = some a ∨ a = w.ctx

end Aihw.Shared
