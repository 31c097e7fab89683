import Verif.State.CompoundProps
import Verif.Pulsed.VectorExamples
import Verif.Pulsed.MixedPrecExamples

/-!
# C76: concrete cases
-/
namespace Aihw.State.Ex76
open Aihw.Pulsed Aihw.Pulsed.Ex

/-- A tile around a simulator state. -/
def wrap {σ : Type} (s : σ) : Tile σ Nat :=
  { cls := "AnalogTile", cfg := 0, sim := s, xSize := 2, dSize := 2, torchTile := false,
    params := [], noneAttrs := [], lrScale := 1, nonBlocking := false,
    ctx := ⟨0, [], false, false⟩, loadCfg := true, strictCfg := true, aux := 0 }

def g3 : Nat → Nat → Nat → ℚ := fun _ _ _ => 0
def g2 : Nat → Nat → ℚ := fun _ _ => 0

/-- Interface for the unit cell `p`; new tiles are `vs p`. -/
def vI (p : VPar ℚ) := vecOps F p (fun _ _ _ _ => vs p) (fun _ => 0) g3 (fun _ => [])

/-- The state after a history, or the initial one. -/
def after (p : VPar ℚ) (l : List (VOp ℚ)) : VS ℚ := match p.run F (vs p) l with
  | .ok s => s
  | .error _ => vs p

/-- Save, load into a new tile. -/
def reloadV (p : VPar ℚ) (l : List (VOp ℚ)) : Except PyErr (VTile ℚ) :=
  restoreSim (vI p) (getAnalogState (vI p) (wrap ⟨after p l, 1/10⟩)) 0 ⟨vs p, 1/100⟩

def vview (r : Except PyErr (VTile ℚ)) : Option (ℚ × List ℚ × ℤ × Nat × ℚ) := match r with
  | .ok t => some (t.s.vis 0, [((t.s.dev 0).st 0).vis, ((t.s.dev 1).st 0).vis, ((t.s.dev 2).st 0).vis],
      t.s.cur, t.s.upd, t.lr)
  | .error _ => none

/-- Three devices in turn: after four updates cell 0 of the devices holds 1/8, 1/4, 1/8 and the weight
is 1/6; after the reload all three hold 1/6. -/
example : vview (.ok ⟨after vpS [vu.op, vu.op, vu.op, vu.op], 1/10⟩) =
      some (1/6, [1/8, 1/4, 1/8], 1, 4, 1/10) ∧
    vview (reloadV vpS [vu.op, vu.op, vu.op, vu.op]) = some (1/6, [1/6, 1/6, 1/6], 1, 4, 1/10) := by
  decide +kernel

/-- Two devices with weighting 1 and 1/2: the weight `3/16` becomes `9/32` at the first update, even
without coincidences. -/
example : (after vpA [vu.op]).vis 0 = 3/16 ∧
    (match reloadV vpA [vu.op] with
      | .ok t => visOf (vpA.step F t.s (.update true [] 0)) 0
      | .error _ => 77) = 9/32 := by
  decide +kernel

/-- A reference cell with reference weight `-1/8` (set through the hidden weights) after one update. -/
def refHist : List (VOp ℚ) :=
  [.setHidden (fun _ _ => c0) vzero (fun j _ => if j = 1 then -1/8 else 0) (fun _ => 0) vzero, vu.op]

/-- `1/8 - (-1/8) = 1/4` is saved and restored; the first update makes it `1/4 + 1/8`. -/
example : (after vpR refHist).vis 0 = 1/4 ∧
    vview (reloadV vpR refHist) = some (1/4, [1/4, -1/8, 0], 0, 1, 1/10) ∧
    (match reloadV vpR refHist with
      | .ok t => visOf (vpR.step F t.s (.update true [] 0)) 0
      | .error _ => 77) = 3/8 := by
  decide +kernel

/-- A saved reference cell: `1/8` and reference `-1/8`. -/
def refState : VS ℚ :=
  ⟨fun j => ⟨.constant, p0, 2, 2, fun _ => c0, fun _ => ⟨if j = 0 then 1/8 else -1/8, 0⟩⟩, 0, 1,
    fun _ => 1/4⟩

/-- It meets the hypotheses of `C76_reference_shift`. -/
example : SameDevs refState.dev (vs vpR).dev ∧ vpR.policy = .singleFixed ∧ vpR.n = 2 ∧
    vpR.gamma 0 = 1 ∧ vpR.gamma 1 = -1 ∧ (vs vpR).cur = 0 ∧ refState.cur = 0 ∧
    ((refState.dev 0).cell 0).minB ≤ refState.vis 0 ∧
    refState.vis 0 ≤ ((refState.dev 0).cell 0).maxB := by
  refine ⟨fun j => ⟨rfl, rfl, rfl⟩, by decide +kernel, by decide +kernel, by decide +kernel,
    by decide +kernel, by decide +kernel, by decide +kernel, by decide +kernel, by decide +kernel⟩

/-! ## One-sided -/

def oI := oneOps F op2 (fun _ _ _ _ => os 0 0) 0 0 g2 g2 (fun _ => [])

def reloadO (s : OS ℚ) : Except PyErr (OTile ℚ) :=
  restoreSim oI (getAnalogState oI (wrap ⟨s, 1/10⟩)) 0 ⟨os 0 0, 1/100⟩

/-- Conductances `7/8` and `1/2` (weight `3/8`) come back as `3/8` and `0`. -/
example : (match reloadO ⟨od (7/8), od (1/2), fun _ => 3/8, 3, 1⟩ with
    | .ok t => (t.s.vis 0, (t.s.plus.st 0).vis, (t.s.minus.st 0).vis, t.s.upd, t.s.refreshed)
    | .error _ => (7, 7, 7, 7, 7)) = (3/8, 3/8, 0, 3, 0) := by
  decide +kernel

/-! ## Mixed precision -/

def mI := mixOps F mp (fun _ _ _ _ => ms) 0 g2 (fun _ => [])

def afterM (l : List (MU ℚ)) : MS ℚ := match mp.run F ms l with
  | .ok r => r.1
  | .error _ => ms

/-- One update accumulates `3/40`; after the reload it is gone, the update counter is kept. -/
example : (afterM [mu]).chi 0 0 = 3/40 ∧
    (match restoreSim mI (getAnalogState mI (wrap ⟨afterM [mu], 1/10⟩)) 0 ⟨ms, 1/100⟩ with
    | .ok t => (t.s.chi 0 0, t.s.idx)
    | .error _ => (7, 7)) = (0, 1) := by
  decide +kernel

end Aihw.State.Ex76
