import Verif.Common
import Mathlib.Data.Rat.Floor
import Mathlib.Algebra.Order.Round
import Mathlib.Data.List.GetD

/-!
# Weight modifiers of hardware-aware training (C42)

RPUCuda tile: src/rpucuda/weight_modifier.cpp:21-206, `RPUSimple::modifyFBWeights` (src/rpucuda/rpu.cpp:1749-1758),
`getFBWeights` (rpu.cpp:1483-1487), `setWeights` (rpu.cpp:1308-1314) and the modifier part of `post_update_step`
(src/aihwkit/simulator/tiles/inference.py:350-361).  Torch tile: torch_tile.py:213-262.
The types `DoReFa` (tanh) and `PCMNoise` (CUDA only) are not modelled. Gaussian and uniform numbers are arbitrary
arguments, indexed by the position of the weight.
-/
namespace Aihw.PostUpdate.Modifier

/-- `WeightModifierType` (src/aihwkit/simulator/parameters/enums.py), the modelled ones. -/
inductive ModType where
  | none | copy | discretize | multNormal | addNormal | poly | progNoise | discretizeAddNormal | dropConnect
  deriving DecidableEq

/-- `WeightModifierParameter` (src/aihwkit/simulator/parameters/inference.py:22-144). -/
structure ModPars where
  type : ModType
  stdDev : ℚ := 0
  res : ℚ := 0
  stoRound : Bool := false
  pdrop : ℚ := 0
  enableDuringTest : Bool := false
  relToActualWmax : Bool := true
  assumedWmax : ℚ := 1
  copyLastColumn : Bool := false
  coeffs : List ℚ := []
  gMax : ℚ := 25

/-- Random numbers of one application: Gaussian, rounding (uniform in [0, 1)) and dropping (uniform), per position. -/
structure Draws where
  gauss : Nat → Nat → ℚ
  rnd : Nat → Nat → ℚ
  drop : Nat → Nat → ℚ

/-- C `roundf`: nearest integer, ties away from zero. -/
def roundC (x : ℚ) : ℤ := if 0 ≤ x then ⌊x + 1 / 2⌋ else -⌊-x + 1 / 2⌋

/-- src/rpucuda/utility_functions.h:196-202 `getDiscretizedValueRound`. -/
def discretize (x res : ℚ) (sto : Bool) (u : ℚ) : ℚ :=
  if res ≤ 0 then x
  else if sto then roundC (x / res + (u - 1 / 2)) * res else roundC (x / res) * res

/-- Polynomial `c₀ + c₁ a + c₂ a² + …` as accumulated in weight_modifier.cpp:124-131. -/
def poly : List ℚ → ℚ → ℚ
  | [], _ => 0
  | c :: cs, a => c + a * poly cs a

/-- weight_modifier.cpp:57-68: reference maximum; the last column is skipped with `copy_last_column`. -/
def amaxOf (p : ModPars) (w : Mat) : ℚ :=
  if p.relToActualWmax ∧ p.type ≠ .copy then
    let a := absMax (w.map fun r => absMax (if p.copyLastColumn then r.dropLast else r))
    if a > 0 then a else 1
  else p.assumedWmax

/-- weight_modifier.cpp:70-188, one weight. -/
def modEntry (p : ModPars) (amax : ℚ) (d : Draws) (i j : Nat) (w : ℚ) : ℚ :=
  match p.type with
  | .none | .copy | .dropConnect => w
  | .discretize => if p.res > 0 then amax * discretize (w / amax) p.res p.stoRound (d.rnd i j) else w
  | .multNormal => if p.stdDev > 0 then w + w * (p.stdDev * amax) * d.gauss i j else w
  | .addNormal => if p.stdDev > 0 then w + p.stdDev * amax * d.gauss i j else w
  | .poly =>
    if p.stdDev > 0 ∧ p.coeffs ≠ [] then w + amax * (poly p.coeffs (|w| / amax) * p.stdDev) * d.gauss i j else w
  | .progNoise =>
    if p.stdDev > 0 ∧ p.coeffs ≠ [] then
      let v := w + amax * (poly p.coeffs (|w| / amax) * (p.stdDev / p.gMax)) * d.gauss i j
      if w < 0 then -|v| else |v|
    else w
  | .discretizeAddNormal =>
    if p.res > 0 ∨ p.stdDev * amax > 0 then
      amax * discretize (w / amax) p.res p.stoRound (d.rnd i j) + p.stdDev * amax * d.gauss i j
    else w

/-- weight_modifier.cpp:21-29 drop connect. -/
def dropEntry (p : ModPars) (d : Draws) (i j : Nat) (w : ℚ) : ℚ :=
  if p.pdrop > 0 then (if d.drop i j < p.pdrop then 0 else w) else w

/-- weight_modifier.cpp:194-205 (with 49-54): the last column is restored. -/
def modRow (p : ModPars) (amax : ℚ) (d : Draws) (i : Nat) (r : Vec) : Vec :=
  r.mapIdx fun j w =>
    if p.copyLastColumn ∧ j + 1 = r.length then w else dropEntry p d i j (modEntry p amax d i j w)

/-- weight_modifier.cpp:31-206 `apply` into a separate matrix. -/
def applyMod (p : ModPars) (d : Draws) (w : Mat) : Mat :=
  w.mapIdx fun i r => modRow p (amaxOf p w) d i r

/-! ## The tile -/

/-- `RPUSimple`: weights, modified copy for forward/backward, the modifier's `enable_during_test`. -/
structure Tile where
  w : Mat
  fb : Option Mat := none
  enableTest : Bool := false

/-- rpu.cpp:1483-1487 `getFBWeights`. -/
def fbWeights (t : Tile) (isTest : Bool) : Mat :=
  match t.fb with
  | some f => if !isTest || t.enableTest then f else t.w
  | none => t.w

/-- rpu.cpp:1749-1758 `modifyFBWeights`. -/
def modifyFB (p : ModPars) (d : Draws) (t : Tile) : Tile :=
  { t with fb := some (applyMod p d t.w), enableTest := p.enableDuringTest }

/-- inference.py:350-361: the modifier part of `post_update_step`. -/
def postUpdate (p : ModPars) (d : Draws) (t : Tile) : Tile :=
  if p.type = .none then t
  else if p.type = .copy ∧ p.pdrop ≤ 0 then t
  else modifyFB p d t

/-- What happens to a tile: the weights are replaced (`set_weights`, an update, clipping, remapping: all act on the
true weights only, rpu.cpp:1308-1314), or a post-update step with the current modifier configuration. -/
inductive Act where
  | write (w : Mat)
  | postUpdate (p : ModPars) (d : Draws)

/-- One action. -/
def act (t : Tile) : Act → Tile
  | .write w => { t with w := w }
  | .postUpdate p d => postUpdate p d t

/-- Torch tile, torch_tile.py:213-262 with `per_batch_sample = False`: the weights of one training forward.
`rnd` is the uniform number of the stochastic rounding shifted to (-1/2, 1/2). A zero reference maximum divides by zero in
the discretization; `assert res > 0`. -/
def torchModify (p : ModPars) (d : Draws) (w : Mat) : Except PyErr Mat :=
  let amax := if p.relToActualWmax then absMax (w.map absMax) else p.assumedWmax
  match p.type with
  | .none | .copy => .ok w
  | .multNormal => .ok (w.mapIdx fun i r => r.mapIdx fun j x => x + x * p.stdDev * d.gauss i j)
  | .addNormal => .ok (w.mapIdx fun i r => r.mapIdx fun j x => x + p.stdDev * amax * d.gauss i j)
  | .discretize =>
    let res := if p.res > 1 then 1 / p.res else p.res
    if res ≤ 0 then .error .assertion
    else
      let step := res * (2 * amax)
      if step = 0 then .error .nanInf
      else .ok (w.mapIdx fun i r => r.mapIdx fun j x =>
        roundHE (x / step + if p.stoRound then d.rnd i j - 1 / 2 else 0) * step)
  | _ => .error .configError

/-- torch_tile.py:173-196 `forward`: the weights used; evaluation never modifies. -/
def torchForwardWeights (p : ModPars) (d : Draws) (w : Mat) (isTest : Bool) : Except PyErr Mat :=
  if isTest then .ok w else torchModify p d w

end Aihw.PostUpdate.Modifier
