import Verif.Settings.Model

/-!
# Specification: which settings a tile uses
-/
namespace Aihw.Settings
open Aihw

variable {V : Type}

/-- Nothing exists yet. -/
def Start (w : World V) : Prop := w.heap.nc = 0 ∧ w.heap.np = 0 ∧ w.nt = 0 ∧ w.ns = 0

/-- What a program can reach. -/
def Reached (sem : Sem V) (w : World V) : Prop := ∃ w₀ l, Start w₀ ∧ w = run sem w₀ l

/-- The call gives the tile another configuration (or makes its simulator tile again). -/
def Rebinds (t : ℕ) : Op V → Prop
  | .load t' _ _ => t' = t
  | .replace t' _ => t' = t
  | _ => False

/-- The call changes a part of a configuration object, in place or by assigning another part. -/
def Edits (c : ℕ) (p : Part) : Op V → Prop
  | .setPart d q _ => d = c ∧ q = p
  | .assign d q _ => d = c ∧ q = p
  | _ => False

/-- The call assigns another part to a configuration object. -/
def Assigns (c : ℕ) (p : Part) : Op V → Prop
  | .assign d q _ => d = c ∧ q = p
  | _ => False

/-- The call is a forward pass of the tile. -/
def IsForward (t : ℕ) : Op V → Prop
  | .forward t' => t' = t
  | _ => False

/-- The call makes the state of the tile (checkpoint, copy, other configuration). -/
def TakesState (w : World V) (t : ℕ) : Op V → Prop
  | .save t' => t' = t
  | .copy t' => t' = t
  | .replace t' c => t' = t ∧ c < w.heap.nc
  | _ => False

open Classical in
/-- The value that the tile last used for a part in `post_update_step`, since its state was last
taken, as seen by an observer of the calls. -/
noncomputable def lastUse (sem : Sem V) (t : ℕ) (p : Part) : World V → List (Op V) → Option V → Option V
  | _, [], a => a
  | w, o :: l, a => lastUse sem t p (step sem w o).1 l
      (if TakesState w t o then none
       else if h : o = .postUpdate t ∧ ∃ v, (p, v) ∈ usedBy sem w o then some h.2.choose
       else a)

end Aihw.Settings
