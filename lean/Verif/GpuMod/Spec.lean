import Verif.GpuMod.Model
import Verif.PostUpdate.ModifierProps2

/-!
# Specification of the weight modifiers on the GPU
-/
namespace Aihw.GpuMod
open Aihw.PostUpdate.Modifier (ModType ModPars)

/-- The weight matrix (outputs times inputs) in column-major memory. -/
def matrix (d x : ℕ) (mem : Arr) : Mat := (List.range d).map fun i => (List.range x).map fun j => mem (j * d + i)

/-- The same random numbers for the CPU, by row and column. -/
def byPosition (d : ℕ) (r : Draws) : PostUpdate.Modifier.Draws where
  gauss i j := r.gauss (j * d + i)
  rnd i j := r.rnd (j * d + i)
  drop i j := r.drop (j * d + i)

/-- A state which the modifier can be in: the uploaded coefficients are the remembered ones. -/
def State.Good (s : State) : Prop := ∀ c, s.dev = some c → c = s.coeffs

/-- The maximum is taken over the weights which take part: nothing was remembered, or the right size. -/
def State.Fits (s : State) (g : GPars) (size d : ℕ) : Prop :=
  s.maxSize = none ∨ s.maxSize = some (if g.base.copyLastColumn then size - d else size)

/-- An application takes the maximum of the weights. -/
def Relative (g : GPars) : Prop := g.base.relToActualWmax = true ∧ (g.kind ≠ .base ∨ g.base.type ≠ .copy)

/-- A history of applications to whatever weights. -/
structure Call where
  g : GPars
  r : Draws
  w : Arr
  new : Arr
  inPlace : Bool

/-- The state after a history of calls. -/
def after (f : Fns) (size d : ℕ) (h : List Call) : State :=
  h.foldl (fun s c => (apply f c.g size d c.inPlace c.r s c.w c.new).1) {}

/-- The largest magnitude among the first `n` elements, zero if all are zero. -/
def IsMax (n : ℕ) (w : Arr) (a : ℚ) : Prop :=
  (∀ i < n, |w i| ≤ a) ∧ ((∃ i < n, |w i| = a) ∨ (n = 0 ∧ a = 0))

/-! ### PCM noise -/

/-- The conductance target of a weight: limited to the reference maximum, scaled to `gMax`, and zero if it is not above the
threshold. -/
def PcmStart (thres gMax a w g : ℚ) : Prop :=
  ∃ c, (a ≤ w → c = a) ∧ (w ≤ -a → c = -a) ∧ (-a ≤ w → w ≤ a → c = w) ∧
    ((thres < |c * gMax / a| → g = c * gMax / a) ∧ (|c * gMax / a| ≤ thres → g = 0))

/-! ### Tiles -/

/-- What is done to a tile before it is evaluated. -/
inductive Act (W : Type) where
  | write (w : W)
  | modify (enable : Bool) (v : W)
  | copied
  | loadedCpu (e : Extra W)

variable {W : Type}

/-- One action. -/
def act (t : Tile W) : Act W → Tile W
  | .write w => { t with w := w }
  | .modify b v => GpuMod.modify b v t
  | .copied => copyTile t
  | .loadedCpu e => loadCpu e t

end Aihw.GpuMod
