import Verif.Pulsed.BitLineProps
import Mathlib.Analysis.SpecialFunctions.Pow.Real

/-!
# Pulse-train length and scaling: `PulsedUpdateMetaParameter`

Models rpu_pulsed_meta_parameter.cpp:131-240 and the call in sparse_bit_line_maker.cpp:296-320
(dense_bit_line_maker.cpp:265-300 makes the same choice with `|lr|`).  Reals instead of floats;
divisions by zero are unreachable in the theorems below (`granularity > 0`, `desired_BL ≥ 1`).
-/
namespace Aihw.Pulsed

/-- The scaling parameters of an update (rpu_pulsed_meta_parameter.h:248-275). -/
structure UpPar where
  fixedBL : Bool
  desiredBL : ℕ
  um : Bool
  ublm : Bool
  umGradScale : ℝ

/-- Train length and the two probability scales. -/
structure BLAB where
  bl : ℤ
  a : ℝ
  b : ℝ

/-- `PulsedUpdateMetaParameter::initialize` (rpu_pulsed_meta_parameter.cpp:134-149): update-BL
management switches update management on. -/
def UpPar.initialize (u : UpPar) : UpPar := { u with um := u.um || u.ublm }

/-- `calculateBlAB` (rpu_pulsed_meta_parameter.cpp:151-178). -/
noncomputable def UpPar.calculateBlAB (u : UpPar) (lr g : ℝ) : Except PyErr BLAB :=
  if lr < 0 then .error .runtimeError
  else if lr = 0 then .ok ⟨0, 0, 0⟩
  else if u.fixedBL || u.ublm then
    .ok ⟨u.desiredBL, √(lr / (g * u.desiredBL)), √(lr / (g * u.desiredBL))⟩
  else if g * u.desiredBL < lr then .ok ⟨max ⌈lr / g⌉ 1, 1, 1⟩
  else .ok ⟨u.desiredBL, √(lr / (g * u.desiredBL)), √(lr / (g * u.desiredBL))⟩

/-- The UBLM step (rpu_pulsed_meta_parameter.cpp:208-216). -/
noncomputable def UpPar.ublmStep (u : UpPar) (r : BLAB) (maxBL : ℤ) (kVal lr g : ℝ) : BLAB :=
  if u.ublm then
    let bl := if maxBL < ⌈kVal⌉ then maxBL else ⌈kVal⌉
    ⟨bl, √(lr / (g * bl)), √(lr / (g * bl))⟩
  else r

/-- The UM step (rpu_pulsed_meta_parameter.cpp:218-228). -/
noncomputable def UpPar.umStep (u : UpPar) (r : BLAB) (maxBL : ℤ) (kVal xVal dVal : ℝ) : BLAB :=
  if u.um then
    let dVal := if (maxBL : ℝ) < kVal then dVal * ((maxBL : ℝ) / kVal) else dVal
    ⟨r.bl, r.a * √(xVal / dVal), r.b * √(dVal / xVal)⟩
  else r

/-- `performUpdateManagement` (rpu_pulsed_meta_parameter.cpp:180-240). -/
noncomputable def UpPar.performUM (u : UpPar) (maxBL : ℤ) (xMax dMax lr g : ℝ) :
    Except PyErr BLAB := do
  let r ← u.calculateBlAB lr g
  if 0 < lr then
    if dMax = 0 ∨ xMax = 0 then return ⟨0, 1, 1⟩
    if u.ublm || u.um then
      let dVal := u.umGradScale * dMax
      let kVal := lr * xMax * dVal / g
      return u.umStep (u.ublmStep r maxBL kVal lr g) maxBL kVal xMax dVal
    return r
  return r

/-- `Find_Absolute_Max` over the first `n` entries. -/
noncomputable def absMax (n : Nat) (v : Nat → ℝ) : ℝ :=
  (List.range n).foldl (fun m j => max m |v j|) 0

/-- The choice of `makeCounts` (sparse_bit_line_maker.cpp:307-318). -/
noncomputable def UpPar.scales (u : UpPar) (X D : Nat) (x d : Nat → ℝ) (lr g : ℝ) :
    Except PyErr BLAB :=
  if u.ublm || u.um then u.performUM u.desiredBL (absMax X x) (absMax D d) lr g
  else u.calculateBlAB lr g

/-- The pulse trains of an update with pulse-count learning rate `lr` (of any sign:
rpu_weight_updater.cpp:243-248 hands over `|lr|` and keeps the sign for the direction). -/
noncomputable def UpPar.pulses (u : UpPar) (ty : SparseType) (res : ℝ) (sto : Bool) (X D : Nat)
    (lr g : ℝ) (x d : Nat → ℝ) (tx td : TrainDraw ℝ) (pd : PulseDraw ℝ) :
    Except PyErr (List (P ℝ)) := do
  let r ← u.scales X D x d (if lr < 0 then -lr else lr) g
  return sparsePulses ty ⟨r.bl.toNat, r.a, r.b, res, sto⟩ X D (if lr < 0 then -1 else 1) x d tx td pd

end Aihw.Pulsed
