import Verif.Common

/-!
# Model of the torch analog matrix-vector product

`UniformQuantize` (src/aihwkit/simulator/tiles/utils.py:18-74) and `AnalogMVM`
(src/aihwkit/simulator/tiles/analog_mvm.py:26-402).  A batch is a list of samples (2-d input
`[N, in_size]`); 3-d inputs/weights are not modelled.  Random numbers are arguments (`Draws`).
-/
namespace Aihw.Mvm

/-! ## Discretization -/

/-- utils.py:40-43: the quantization step after `res = 1/res if res > 1`, `res *= 2*bound`. -/
def qStep (res bound : ℚ) : ℚ := (if res > 1 then 1 / res else res) * (2 * bound)

/-- utils.py:23-59 `UniformQuantize.forward` on one element. `noise = some u` models stochastic
rounding with the uniform draw `u ∈ [-0.5, 0.5)`; `none` is deterministic rounding.
A zero step (bound = 0) divides by zero (NaN/inf in torch). -/
def uniformQuantize (x res bound : ℚ) (noise : Option ℚ) : Except PyErr ℚ :=
  if (if res > 1 then 1 / res else res) ≤ 0 then .error .assertion
  else
    let step := qStep res bound
    if step = 0 then .error .nanInf
    else
      let o := x / step
      let o := match noise with
        | some u => o + u
        | none => o
      .ok ((roundHE o : ℚ) * step)

/-! ## Parameters -/

/-- parameters/enums.py:99-137 -/
inductive NM where
  | none | absMax | absMaxNPSum | max | constant | averageAbsMax
  deriving DecidableEq, Repr

/-- parameters/enums.py:58-97 -/
inductive BM where
  | none | iterative | iterativeWorstCase | shift
  deriving DecidableEq, Repr

/-- parameters/enums.py:310-360 (`AnalogMVType`) -/
inductive MV where
  | ideal | onePass | posNegSeparate | posNegSeparateDigitalSum | splitMode | bitWise
  deriving DecidableEq, Repr

/-- The fields of `IOParameters` (parameters/io.py:19-256) the torch MVM reads, including those only
read by `check_support`. `wNoiseType` is abstracted to "is not NONE". -/
structure IOPars where
  isPerfect : Bool := false
  mvType : MV := .onePass
  inpBound : ℚ := 1
  inpNoise : ℚ := 0
  inpRes : ℚ := 1 / 126
  inpStoRound : Bool := false
  inpAsymmetry : ℚ := 0
  outBound : ℚ := 12
  outNoise : ℚ := 3 / 50
  outRes : ℚ := 1 / 510
  outStoRound : Bool := false
  outScale : ℚ := 1
  outAsymmetry : ℚ := 0
  boundManagement : BM := .iterative
  noiseManagement : NM := .absMax
  maxBmFactor : ℚ := 1000
  maxBmRes : ℚ := 1 / 4
  nmThres : ℚ := 0
  wNoise : ℚ := 0
  wNoiseTypeSet : Bool := false
  irDrop : ℚ := 0
  outNonlinearity : ℚ := 0
  slopeCalibration : ℚ := 0
  vOffsetStd : ℚ := 0
  vOffsetWMin : ℚ := -1
  rSeries : ℚ := 0
  wReadAsymmetryDtod : ℚ := 0

/-- All random numbers of one `matmul` call, indexed by bound-management round, sample and position.
`inpN`/`outN` are standard normal draws, `inpU`/`outU` uniform in [-0.5, 0.5). -/
structure Draws where
  inpN : Nat → Nat → Nat → ℚ
  inpU : Nat → Nat → Nat → ℚ
  outN : Nat → Nat → Nat → ℚ
  outU : Nat → Nat → Nat → ℚ

/-! ## Matrix products -/

/-- Transpose of a matrix with `n` columns. -/
def transpose (n : Nat) (w : Mat) : Mat := (List.range n).map fun j => w.map fun r => r.getD j 0

/-- analog_mvm.py:33-46 `_matmul` for a 2-d weight: `x @ W.T`, or `x @ W` if `trans`.
`inSize` = number of columns of `w`. -/
def baseMatmul (inSize : Nat) (w : Mat) (trans : Bool) (xs : List Vec) : List Vec :=
  xs.map fun x => matVec (if trans then transpose inSize w else w) x

/-! ## Noise management -/

/-- A python float or a tensor with one entry per sample (`keepdim=True`). -/
inductive Scale where
  | num (q : ℚ)
  | per (l : List ℚ)

/-- value used for sample `i` (broadcasting) -/
def Scale.at : Scale → Nat → ℚ
  | .num q, _ => q
  | .per l, i => l.getD i 1

/-- maximum of a non-empty vector; torch raises `IndexError` on an empty reduction dimension. -/
def vecMax : Vec → Except PyErr ℚ
  | [] => .error .indexError
  | a :: l => .ok (l.foldl max a)

/-- `clamp(v, max=nm_thres)` if `nm_thres > 0` (analog_mvm.py:348-350, 355-357). -/
def thres (p : IOPars) (v : ℚ) : ℚ := if p.nmThres > 0 then min v p.nmThres else v

/-- analog_mvm.py:327-358 `_compute_noise_management`. -/
def computeNM (p : IOPars) (xs : List Vec) : Except PyErr Scale :=
  match p.noiseManagement with
  | .none => .ok (.num 1)
  | .absMax => do
    let l ← xs.mapM fun x => vecMax (x.map (|·|))
    return .per (l.map (thres p))
  | .constant => .ok (.num (if p.nmThres > 0 then p.nmThres else 1))
  | .max => do
    let l ← xs.mapM vecMax
    return .per (l.map (thres p))
  | .absMaxNPSum => .error .configError
  | .averageAbsMax => .error .configError

/-- analog_mvm.py:82-86: the condition of the all-zero shortcut. -/
def isShortcut (p : IOPars) : Scale → Bool
  | .per l => decide (p.inpNoise ≤ 0) && l.all fun s => decide (s = 0)
  | .num _ => false

/-- analog_mvm.py:90-92: `nm_scale_values[nm_scale_values <= 0.0] = 1.0`. -/
def fixNM : Scale → Scale
  | .per l => .per (l.map fun s => if s ≤ 0 then 1 else s)
  | s => s

/-! ## Input and output stage -/

/-- Sequence `f 0 x₀, f 1 x₁, …` over a list, with errors. -/
def mapIdxE {α β : Type} (f : Nat → α → Except PyErr β) (l : List α) : Except PyErr (List β) :=
  go 0 l
where
  go : Nat → List α → Except PyErr (List β)
    | _, [] => .ok []
    | i, a :: as => do
      let b ← f i a
      let bs ← go (i + 1) as
      return b :: bs

/-- `clamp(x, -bound, bound)` with `bound = inf` when the parameter is not positive
(analog_mvm.py:298, 251). -/
def clampBound (bound x : ℚ) : ℚ := if bound > 0 then clamp (-bound) bound x else x

/-- `v[v < 0] *= 1 - asymmetry`, executed when `asymmetry != 0` (analog_mvm.py:255-256, 322-323). -/
def asym (a v : ℚ) : ℚ := if a ≠ 0 ∧ v < 0 then v * (1 - a) else v

/-- analog_mvm.py:304-316: scale, discretize and clip one input value (what the DAC emits). -/
def dacValue (p : IOPars) (scale : ℚ) (scaling : Bool) (u : ℚ) (x : ℚ) : Except PyErr ℚ := do
  let v := if scaling then x * scale else x
  let v ← if p.inpRes > 0 then
      uniformQuantize v p.inpRes p.inpBound (if p.inpStoRound then some u else none)
    else pure v
  return clampBound p.inpBound v

/-- analog_mvm.py:277-325 `_prepare_input` on one element: DAC, then input noise, then asymmetry. -/
def prepareElem (p : IOPars) (scale : ℚ) (scaling : Bool) (u n : ℚ) (x : ℚ) : Except PyErr ℚ := do
  let v ← dacValue p scale scaling u x
  let v := if p.inpNoise > 0 then v + p.inpNoise * n else v
  return asym p.inpAsymmetry v

/-- analog_mvm.py:257-263: output noise on output line `j`. -/
def addOutNoise (p : IOPars) (outNoiseValues : Option (Nat → ℚ)) (j : Nat) (n v : ℚ) : ℚ :=
  match outNoiseValues with
  | some f => v + n * f j
  | none => if p.outNoise > 0 then v + p.outNoise * n else v

/-- analog_mvm.py:255-269, one output value before clipping: asymmetry, noise, ADC discretization. -/
def adcPreClip (p : IOPars) (onv : Option (Nat → ℚ)) (j : Nat) (n u v : ℚ) : Except PyErr ℚ := do
  let v := asym p.outAsymmetry v
  let v := addOutNoise p onv j n v
  if p.outRes > 0 then
    uniformQuantize v p.outRes p.outBound (if p.outStoRound then some u else none)
  else pure v

/-- analog_mvm.py:270: is this value within the output bound (`inf` if not positive)? -/
def notClipping (p : IOPars) (v : ℚ) : Bool :=
  if p.outBound > 0 then decide (v ≤ p.outBound) && decide (-p.outBound ≤ v) else true

/-- analog_mvm.py:229-275 `_finalize_output` for the batch. -/
def finalizeOutput (p : IOPars) (onv : Option (Nat → ℚ)) (n u : Nat → Nat → ℚ) (ys : List Vec) :
    Except PyErr (Bool × List Vec) := do
  let vs ← mapIdxE (fun i y => mapIdxE (fun j v => adcPreClip p onv j (n i j) (u i j) v) y) ys
  let pass := vs.all fun y => y.all (notClipping p)
  let passed := if p.boundManagement ≠ .none then pass else true
  return (passed, vs.map fun y => y.map (clampBound p.outBound))

/-- analog_mvm.py:169-227 `_compute_analog_mv` in bound-management round `k`. -/
def computeAnalogMV (p : IOPars) (inSize : Nat) (w : Mat) (trans : Bool) (onv : Option (Nat → ℚ))
    (d : Draws) (k : Nat) (scale : Scale) (scaling : Bool) (xs : List Vec) :
    Except PyErr (Bool × List Vec) := do
  let prep ← mapIdxE (fun i x =>
    mapIdxE (fun j v => prepareElem p (scale.at i) scaling (d.inpU k i j) (d.inpN k i j) v) x) xs
  match p.mvType with
  | .onePass => finalizeOutput p onv (d.outN k) (d.outU k) (baseMatmul inSize w trans prep)
  | .ideal => throw .configError
  | _ => throw .notImplemented

/-- analog_mvm.py:95-101 and 134-143: `scale = 1 / nm / reduction`. A tensor stays a tensor.
Division by zero is an explicit error. -/
def mkScale (nm : Option Scale) (reduction : Option ℚ) : Except PyErr Scale := do
  let div (s q : ℚ) : Except PyErr ℚ := if q = 0 then throw .nanInf else pure (s / q)
  let s : Scale ← match nm with
    | none => pure (.num 1)
    | some (.num q) => do let v ← div 1 q; pure (.num v)
    | some (.per l) => do let l' ← l.mapM (div 1); pure (.per l')
  match reduction with
  | none => return s
  | some r => match s with
    | .num q => do let v ← div q r; return .num v
    | .per l => do let l' ← l.mapM (fun q => div q r); return .per l'

/-- `scaling = not (isinstance(scale, Number) and scale == 1.0)` -/
def isScaling : Scale → Bool
  | .num q => decide (q ≠ 1)
  | .per _ => true

/-- analog_mvm.py:114-115, 165-166: `if scaling or out_scale != 1.0: output *= out_scale / scale`. -/
def rescale (p : IOPars) (scale : Scale) (scaling : Bool) (ys : List Vec) : Except PyErr (List Vec) :=
  if scaling || decide (p.outScale ≠ 1) then
    mapIdxE (fun i y => if scale.at i = 0 then .error .nanInf
      else .ok (y.map (· * (p.outScale / scale.at i)))) ys
  else .ok ys

/-- analog_mvm.py:122-125: input resolution relative to the input range used by the BM limit. -/
def bmInpRes (p : IOPars) : ℚ :=
  if p.inpRes > 0 then (if p.inpRes > 1 then 1 / p.inpRes else p.inpRes) * (2 * p.inpBound)
  else p.inpRes

/-- analog_mvm.py:156-162 stop criterion for the current reduction. -/
def bmLimitReached (p : IOPars) (reduction : ℚ) : Bool :=
  decide (reduction > p.maxBmFactor) ||
    (decide (bmInpRes p > 0) && decide (reduction > p.maxBmRes / bmInpRes p))

/-- One round of the bound-management loop (reduction `2^k`, `k = 0, 1, …`), analog_mvm.py:128-162:
returns whether the loop stops, the output and the scale used. -/
def bmRound (p : IOPars) (inSize : Nat) (w : Mat) (trans : Bool) (onv : Option (Nat → ℚ))
    (d : Draws) (nm : Option Scale) (xs : List Vec) (k : Nat) :
    Except PyErr (Bool × List Vec × Scale) := do
  let reduction : ℚ := 2 ^ k
  let scale ← mkScale nm (some reduction)
  let (passed, out) ← computeAnalogMV p inSize w trans onv d k scale (isScaling scale) xs
  return (passed || bmLimitReached p reduction, out, scale)

/-- analog_mvm.py:128-162, the `while not bound_test_passed` loop, started at round `k`. The `while`
loop is unbounded in the code; `fuel` only makes the definition total (`.other` = fuel exhausted), and
`C07_terminates` shows that it is never exhausted in `matmul`. -/
def bmLoop (p : IOPars) (inSize : Nat) (w : Mat) (trans : Bool) (onv : Option (Nat → ℚ))
    (d : Draws) (nm : Option Scale) (xs : List Vec) : Nat → Nat → Except PyErr (List Vec × Scale)
  | 0, _ => .error .other
  | fuel + 1, k => do
    let (stop, out, scale) ← bmRound p inSize w trans onv d nm xs k
    if stop then return (out, scale) else bmLoop p inSize w trans onv d nm xs fuel (k + 1)

/-- enough iterations for every input, see `C07_terminates` -/
def bmFuel (p : IOPars) : Nat := ⌊p.maxBmFactor⌋.toNat + 2

/-- analog_mvm.py:48-167 `matmul`. -/
def matmul (p : IOPars) (inSize : Nat) (w : Mat) (trans : Bool) (onv : Option (Nat → ℚ))
    (d : Draws) (xs : List Vec) : Except PyErr (List Vec) :=
  if p.isPerfect || decide (p.mvType = .ideal) then .ok (baseMatmul inSize w trans xs)
  else do
    let nm ← computeNM p xs
    let outLen := if trans then inSize else w.length
    if isShortcut p nm then return xs.map fun _ => List.replicate outLen 0
    else do
      let nmUsed : Option Scale := if p.noiseManagement ≠ .none then some (fixNM nm) else none
      if p.boundManagement = .none then do
        let scale ← mkScale nmUsed none
        let (_, out) ← computeAnalogMV p inSize w trans onv d 0 scale (isScaling scale) xs
        rescale p scale (isScaling scale) out
      else do
        let (out, scale) ← bmLoop p inSize w trans onv d nmUsed xs (bmFuel p) 0
        rescale p scale (isScaling scale) out

/-- analog_mvm.py:360-402 `check_support`: `true` = accepted, otherwise `ConfigError`. -/
def checkSupport (p : IOPars) : Except PyErr Unit := do
  if p.mvType ≠ .onePass then throw .configError
  if p.boundManagement = .shift then throw .configError
  if p.noiseManagement = .averageAbsMax ∨ p.noiseManagement = .absMaxNPSum then throw .configError
  if p.wNoise > 0 ∨ p.wNoiseTypeSet = true then throw .configError
  if p.irDrop > 0 then throw .configError
  if p.outNonlinearity > 0 then throw .configError
  if p.slopeCalibration > 0 then throw .configError
  if p.vOffsetStd > 0 ∨ p.vOffsetWMin > 0 ∨ p.rSeries > 0 then throw .configError
  if p.wReadAsymmetryDtod > 0 then throw .configError

end Aihw.Mvm
