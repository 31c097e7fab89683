import Verif.Mvm.Model

/-!
# Specification vocabulary for C05–C09
-/
namespace Aihw.Mvm

/-- The step size documented for resolution `res` (a fraction, or a number of states if `> 1`)
relative to the range `[-bound, bound]`. -/
def docStep (res bound : ℚ) : ℚ := 2 * bound * (if 1 < res then 1 / res else res)

/-- The documented noise-management factor α of a sample (parameters/enums.py:99-137 and `nm_thres` in
parameters/io.py), with the convention that a non-positive factor is replaced by 1. -/
def nmFactor (p : IOPars) (x : Vec) : ℚ :=
  let cap (a : ℚ) := if 0 < p.nmThres then min a p.nmThres else a
  let safe (a : ℚ) := if a ≤ 0 then 1 else a
  match p.noiseManagement with
  | .constant => if 0 < p.nmThres then p.nmThres else 1
  | .absMax => safe (cap (absMax x))
  | .max => safe (cap (x.tail.foldr max (x.headD 0)))
  | _ => 1

/-- Matrix actually multiplied: the weight, or its transpose. -/
def effMat (inSize : Nat) (w : Mat) (trans : Bool) : Mat := if trans then transpose inSize w else w

/-- Every source of non-ideality other than clipping is switched off. -/
structure IdealChain (p : IOPars) (onv : Option (Nat → ℚ)) : Prop where
  mv : p.mvType = .onePass
  inpRes : p.inpRes ≤ 0
  inpNoise : p.inpNoise ≤ 0
  inpAsym : p.inpAsymmetry = 0
  outRes : p.outRes ≤ 0
  outNoise : p.outNoise ≤ 0
  outAsym : p.outAsymmetry = 0
  onv : onv = none

/-- How far beyond the output bound the bound management can compensate. -/
def bmReach (p : IOPars) : ℚ := if p.boundManagement = .none then 1 else max 1 p.maxBmFactor

end Aihw.Mvm
