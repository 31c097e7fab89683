import Verif.Common
import Mathlib.Algebra.Order.Floor.Ring
import Mathlib.Algebra.Order.Archimedean.Basic

/-!
# Pulsed devices of the C++ simulator (`src/rpucuda`)

One crossbar is an array of *cells*.  Every cell has device-to-device parameters (`Cell`) and a
state (`CS`): the visible weight `vis` (`weights[i][j]`) and the persistent weight `per`
(`w_persistent_[i][j]`, only meaningful when write noise is on).  Flat index `k = i * x_size + j`.

Arithmetic is exact over an arbitrary ordered field `K` with floor (instances: `ℚ`, `ℝ`); arrays
are functions of the flat index, of which only the entries below `x_size * d_size` are meaningful;
every random draw is an explicit argument.
Not modelled: FP16/float rounding, CUDA kernels, SIMD ordering, the random generator itself.
-/
namespace Aihw.Pulsed

variable {K : Type} [Field K] [LinearOrder K] [IsStrictOrderedRing K] [FloorRing K]

/-- Device-to-device parameters of one cell: `w_max_bound_`, `w_min_bound_`, `w_scale_up_`,
`w_scale_down_`, `w_decay_scale_`, `w_diffusion_rate_`, `w_reset_bias_`
(rpu_pulsed_device.h:360-376), the linear-step slopes (rpu_linearstep_device.h:125-126), the
pow-step exponents (rpu_powstep_device.h:113-114) and the reference
(rpu_softbounds_reference_device.h:97, rpu_powstep_reference_device.h:139-141).  Fields that a
device class does not have are unused for that class. -/
structure Cell (K : Type) where
  maxB : K
  minB : K
  up : K
  down : K
  decay : K
  diff : K
  resetB : K
  slopeUp : K
  slopeDown : K
  gamUp : K
  gamDown : K
  ref : K
  deriving DecidableEq

/-- State of one cell. -/
structure CS (K : Type) where
  vis : K
  per : K
  deriving DecidableEq

/-- Result of a call of `powf`: a finite number, `+inf` (zero base, negative exponent) or NaN
(negative base, non-integer exponent). -/
inductive Pw (K : Type) where
  | fin (v : K)
  | inf
  | nan

/-- The C library functions used by the step rules, as arbitrary functions. -/
structure Fns (K : Type) where
  expf : K → K
  powf : K → K → Pw K

/-- Parameters of the exponential step rule (`es_a`, `es_b`, `es_A_down`, `es_A_up`,
`es_gamma_down`, `es_gamma_up`, `dw_min_std_add`, `dw_min_std_slope`,
rpu_expstep_device.h:27-44). -/
structure ExpPar (K : Type) where
  a : K
  b : K
  aDown : K
  aUp : K
  gDown : K
  gUp : K
  stdAdd : K
  stdSlope : K

/-- The modelled device classes.  `linear` is `LinearStepRPUDevice` (also `SoftBounds`,
rpu_linearstep_device.h:66-120), with `ls_mult_noise` as flag; `sbRef` is
`SoftBoundsReferenceRPUDevice` with `mult_noise`; `piecewise` carries the node vectors. -/
inductive Kind (K : Type) where
  | constant
  | linear (mult : Bool)
  | exp (p : ExpPar K)
  | pow
  | piecewise (up down : List K)
  | sbRef (mult : Bool)
  | powRef

/-- Scalar parameters of the device (`PulsedRPUDeviceMetaParameter`, rpu_pulsed_device.h:24-104). -/
structure Par (K : Type) where
  dwMin : K
  dwMinStd : K
  writeNoise : K
  resetStd : K
  noiseOnSet : Bool

/-- Whether a device class keeps persistent weights: `usesPersistentWeight`
(rpu_pulsed_device.h:103), overridden to false in rpu_powstep_reference_device.h:52. -/
def persistent (kd : Kind K) (p : Par K) : Bool :=
  match kd with
  | .powRef => false
  | _ => decide (0 < p.writeNoise)

/-- `implementsWriteNoise` (rpu_pulsed_device.h:102 and overrides). -/
def implementsWriteNoise : Kind K → Bool
  | .constant => false
  | .powRef => false
  | _ => true

/-- The parameter check of `PulsedRPUDeviceMetaParameter::initialize`
(rpu_pulsed_device.h:106-110): a device without write-noise support refuses `write_noise_std > 0`. -/
def parOk (kd : Kind K) (p : Par K) : Bool := implementsWriteNoise kd || !(persistent kd p)

/-- `getScaledWriteNoise` (rpu_pulsed_device.h:104). -/
def scaledNoise (p : Par K) : K := p.writeNoise * p.dwMin

/-- `w = MIN(w, max_bound); w = MAX(w, min_bound)` (e.g. rpu_pulsed_device.cpp:367-368). -/
def clipMM (c : Cell K) (w : K) : K := max (min w c.maxB) c.minB

/-- `w = MAX(w, min_bound); w = MIN(w, max_bound)` (e.g. rpu_linearstep_device.cpp:138-139). -/
def clipXN (c : Cell K) (w : K) : K := min (max w c.minB) c.maxB

/-- Adding `s * powf(..)` to `w` and clipping with MAX then MIN, including the IEEE cases: NaN loses
the comparison in `MAX(w, min_bound)`, so it becomes `min_bound` (rpu_powstep_device.cpp:107-116,
math_util.h:23-26).  `s` is the signed factor including the noise. -/
def addPow (c : Cell K) (w s : K) : Pw K → K
  | .fin v => clipXN c (w + s * v)
  | .nan => min c.minB c.maxB
  | .inf => if 0 < s then c.maxB else min c.minB c.maxB

/-- Table lookup for the piecewise device (indices are in range for valid parameters). -/
def tab (l : List K) (i : Nat) : K := l.getD i 0

/-- Interpolated step size of the piecewise device (rpu_piecewisestep_device.cpp:43-77): number of
sections = size of the *up* table minus one, position scaled to `[0, n]`, convex combination of the
two neighbouring nodes; with one node or an empty range the first node is used. -/
def pieceScale (tUp t : List K) (c : Cell K) (w : K) : K :=
  let n := tUp.length - 1
  if n = 0 ∨ c.maxB ≤ c.minB then tab t 0
  else
    let ws := max ((w - c.minB) / (c.maxB - c.minB) * (n : K)) 0
    let i := min ⌊ws⌋.toNat (n - 1)
    let tt := min (ws - (i : K)) 1
    (1 - tt) * tab t i + tt * tab t (i + 1)

/-- One pulse on the *stored* weight `w` (persistent if write noise is on): the per-class
`update_once*` functions without the write noise.  `down = true` is the C++ `sign > 0`
(the weight decreases); `g` is the Gaussian draw of the cycle-to-cycle noise.
`none` means the function returns without touching anything.
* constant: rpu_constantstep_device.cpp:29-55 (without noise the factor is exactly 1);
* linear: rpu_linearstep_device.cpp:116-166;
* exp: rpu_expstep_device.cpp:17-55 (simple) and 57-101 (complex noise);
* pow: rpu_powstep_device.cpp:88-120;
* piecewise: rpu_piecewisestep_device.cpp:29-84;
* sbRef: rpu_softbounds_reference_device.cpp:105-176;
* powRef: rpu_powstep_reference_device.cpp:119-151.  -/
def stepW (F : Fns K) (kd : Kind K) (p : Par K) (c : Cell K) (w : K) (down : Bool) (g : K) :
    Option K :=
  match kd with
  | .constant =>
    let f := if 0 < p.dwMinStd then 1 + p.dwMinStd * g else 1
    some (clipMM c (if down then w - f * c.down else w + f * c.up))
  | .linear true =>
    some (clipXN c (if down then w - (c.slopeDown * w + c.down) * (1 + p.dwMinStd * g)
      else w + (c.slopeUp * w + c.up) * (1 + p.dwMinStd * g)))
  | .linear false =>
    some (clipXN c (if down then w - (c.slopeDown * w + c.down * (1 + p.dwMinStd * g))
      else w + (c.slopeUp * w + c.up * (1 + p.dwMinStd * g))))
  | .exp e =>
    if 0 < c.maxB - c.minB then
      let z := 2 * w / (c.maxB - c.minB) * e.a + e.b
      let y := if down then max (1 - e.aDown * F.expf (e.gDown * (-z))) 0
               else max (1 - e.aUp * F.expf (e.gUp * z)) 0
      if 0 < p.dwMinStd ∧ (e.stdSlope ≠ 0 ∨ e.stdAdd ≠ 0) then
        let dw := if down then -y * c.down else y * c.up
        let sd := p.dwMinStd * (|dw| + e.stdAdd + e.stdSlope * |w|)
        some (clipMM c (w + (dw + sd * g)))
      else
        some (clipMM c (if down then w - y * (1 + p.dwMinStd * g) * c.down
          else w + y * (1 + p.dwMinStd * g) * c.up))
    else none
  | .pow =>
    if c.maxB - c.minB = 0 then none
    else if down then
      some (addPow c w (-(c.down * (1 + p.dwMinStd * g)))
        (F.powf ((w - c.minB) / (c.maxB - c.minB)) c.gamDown))
    else
      some (addPow c w (c.up * (1 + p.dwMinStd * g))
        (F.powf ((c.maxB - w) / (c.maxB - c.minB)) c.gamUp))
  | .piecewise tu td =>
    some (clipXN c (if down then w - pieceScale tu td c w * c.down * (1 + p.dwMinStd * g)
      else w + pieceScale tu tu c w * c.up * (1 + p.dwMinStd * g)))
  | .sbRef mult =>
    let v := w + c.ref
    let a := if down then (if c.minB < 0 then v / c.minB else 0)
             else (if 0 < c.maxB then v / c.maxB else 0)
    let f := if mult then (1 - a) * (1 + p.dwMinStd * g) else 1 - a + p.dwMinStd * g
    some (clipXN c (if down then v - c.down * f else v + c.up * f) - c.ref)
  | .powRef =>
    if c.maxB - c.minB = 0 then none
    else
      let v := w + c.ref
      if down then
        some (addPow c v (-(c.down * (1 + p.dwMinStd * g)))
          (F.powf ((v - c.minB) / (c.maxB - c.minB)) c.gamDown) - c.ref)
      else
        some (addPow c v (c.up * (1 + p.dwMinStd * g))
          (F.powf ((c.maxB - v) / (c.maxB - c.minB)) c.gamUp) - c.ref)

/-- A pulse applied to a cell: the stored weight is stepped, then the visible weight gets the write
noise `g2` if the scaled write noise is positive.  With persistent weights but no positive scaled
noise only the soft-bounds-reference class copies the stored weight to the visible one
(`w_apparent = w`, rpu_softbounds_reference_device.cpp:137-141 and 172-176; the other classes have
no `else`).  Without persistent weights stored and visible weight are the same variable. -/
def pulse (F : Fns K) (kd : Kind K) (p : Par K) (c : Cell K) (s : CS K) (down : Bool) (g g2 : K) :
    CS K :=
  if persistent kd p && implementsWriteNoise kd then
    match stepW F kd p c s.per down g with
    | none => s
    | some w =>
      ⟨if 0 < scaledNoise p then w + scaledNoise p * g2
        else (match kd with | .sbRef _ => w | _ => s.vis), w⟩
  else
    match stepW F kd p c s.vis down g with
    | none => s
    | some w =>
      ⟨if implementsWriteNoise kd && decide (0 < scaledNoise p) then w + scaledNoise p * g2 else w,
        s.per⟩

/-- `applyUpdateWriteNoise` (rpu_pulsed_device.cpp:573-588) of one cell. -/
def writeNoise (kd : Kind K) (p : Par K) (s : CS K) (g : K) : CS K :=
  if implementsWriteNoise kd && persistent kd p then
    ⟨if 0 < scaledNoise p then s.per + scaledNoise p * g else s.per, s.per⟩
  else s

/-- The pattern of all non-pulsed operations (decay, diffusion, clipping, reset, drift:
rpu_pulsed_device.cpp:350-510): transform the stored weight of the cell, then
`applyUpdateWriteNoise` with draw `g`. -/
def onStored (kd : Kind K) (p : Par K) (f : K → K) (s : CS K) (g : K) : CS K :=
  if persistent kd p then writeNoise kd p ⟨s.vis, f s.per⟩ g
  else writeNoise kd p ⟨f s.vis, s.per⟩ g

/-- `onSetWeights` (rpu_pulsed_device.cpp:547-571) after the visible weight was overwritten by
`v`: clip, copy to the persistent weight, optionally add write noise. -/
def onSet (kd : Kind K) (p : Par K) (c : Cell K) (s : CS K) (v g : K) : CS K :=
  let w := clipMM c v
  if persistent kd p then
    if p.noiseOnSet then writeNoise kd p ⟨w, w⟩ g else ⟨w, w⟩
  else ⟨w, s.per⟩

/-- `decayWeights` (rpu_pulsed_device.cpp:350-407) of one cell; `s` is the decay factor. -/
def decayCell (c : Cell K) (s w : K) : K := clipMM c ((w - c.resetB) * s + c.resetB)

/-- `diffuseWeights` (rpu_pulsed_device.cpp:420-435) of one cell. -/
def diffuseCell (c : Cell K) (g w : K) : K := clipMM c (w + c.diff * g)

/-- `clipWeights(weights, clip)` (rpu_pulsed_device.cpp:437-456) of one cell. -/
def clipCell (c : Cell K) (clip w : K) : K :=
  if clip < 0 then clipMM c w
  else max (min w (min c.maxB clip)) (max c.minB (-clip))

/-- The value written by a reset (rpu_pulsed_device.cpp:472-477). -/
def resetCell (p : Par K) (c : Cell K) (g : K) : K :=
  clipMM c (c.resetB + if 0 < p.resetStd then p.resetStd * g else 0)

/-- The column selection of `resetCols` (rpu_pulsed_device.cpp:464-468). -/
def inCols (xSize startCol nCol j : Int) : Bool :=
  (decide (startCol + nCol ≤ xSize) && decide (startCol ≤ j) && decide (j < startCol + nCol)) ||
  (decide (xSize < startCol + nCol) &&
    (decide (startCol ≤ j) || decide (j < nCol - (xSize - startCol))))

/-- A device: class, scalar parameters, sizes, cells and states. -/
structure Dev (K : Type) where
  kd : Kind K
  par : Par K
  xSize : Nat
  dSize : Nat
  cell : Nat → Cell K
  st : Nat → CS K

/-- One elementary pulse of an update: flat cell index, direction and the two draws. -/
structure P (K : Type) where
  k : Nat
  down : Bool
  g : K
  g2 : K

/-- Apply one pulse to the array. -/
def Dev.pulse1 (F : Fns K) (d : Dev K) (q : P K) : Dev K :=
  { d with st := fun k =>
      if k = q.k then Pulsed.pulse F d.kd d.par (d.cell k) (d.st k) q.down q.g q.g2 else d.st k }

/-- Apply a list of pulses in order (`PULSED_UPDATE_W_LOOP`, `PULSED_UPDATE_W_LOOP_DENSE`,
rpu_pulsed_device.h:450-474). -/
def Dev.pulses (F : Fns K) (d : Dev K) (l : List (P K)) : Dev K := l.foldl (Dev.pulse1 F) d

/-- Mean of `(|scale_up| + |scale_down|)/2` over the array (rpu_pulsed_device.cpp:315, 322). -/
def meanStep (size : Nat) (cell : Nat → Cell K) : K :=
  (((List.range size).map fun k => (|(cell k).up| + |(cell k).down|) / 2).sum) / (size : K)

/-- Whether an update replaces the nominal step (`dw_min`) when hidden parameters are set
(rpu_pulsed_device.cpp:322-330); `dtod` is `dw_min_dtod`.  `dw_min = 0` is a float division by
zero, the model leaves `dw_min` unchanged there (x/0 = 0). -/
def newDwMin (old dtod m : K) : K := if 2 * dtod < |m - old| / old then m else old

/-- Device-level operations. -/
inductive Op (K : Type) where
  /-- `setWeights` (rpu_pulsed.cpp:283-287) with the write-noise draws. -/
  | set (v g : Nat → K)
  /-- an update: any list of elementary pulses -/
  | pulses (l : List (P K))
  /-- `decayWeights(bias_no_decay)` -/
  | decay (noBias : Bool) (g : Nat → K)
  /-- `decayWeights(alpha, bias_no_decay)` -/
  | decayAlpha (alpha : K) (noBias : Bool) (g : Nat → K)
  | diffuse (g g2 : Nat → K)
  /-- `driftWeights`: the drifter writes arbitrary values `v`, then `saturate`s them -/
  | drift (v g : Nat → K)
  | clip (c : K) (g : Nat → K)
  /-- `resetCols`: `sel` says for which cells the reset probability fires -/
  | resetCols (start n : Int) (sel : Nat → Bool) (g g2 : Nat → K)
  /-- `resetAtIndices` -/
  | resetAt (idx : List Nat) (g : Nat → K)
  /-- `setDeviceParameter`: new cells, new persistent weights, then `onSetWeights` -/
  | setHidden (cell : Nat → Cell K) (per : Nat → K) (dtod : K) (g : Nat → K)
  /-- an update with pulse type `NoneWithDevice`: floating point update, then `clipWeights(-1)`
  (rpu_weight_updater.cpp:214-221); `dw` is the increment of the visible weights -/
  | fpUpdate (dw g : Nat → K)

/-- Replace the states cell by cell. -/
def Dev.mapSt (d : Dev K) (f : Nat → CS K → CS K) : Dev K := { d with st := fun k => f k (d.st k) }

/-- Decay factor of a cell: the last column is exempt with `bias_no_decay`
(rpu_pulsed_device.cpp:369-377, 396-404). -/
def decayFactor (d : Dev K) (noBias : Bool) (f : K → K) (k : Nat) : K :=
  if noBias && decide (k % d.xSize = d.xSize - 1) then 1 else f (d.cell k).decay

/-- The body of the loop of `resetAtIndices` for flat index `i`
(rpu_pulsed_device.cpp:497-505). -/
def Dev.reset1 (d : Dev K) (i : Nat) (g : K) : Dev K :=
  { d with st := fun k =>
      if k = i then ⟨resetCell d.par (d.cell k) g, (d.st k).per⟩ else d.st k }

/-- `resetAtIndices` (rpu_pulsed_device.cpp:486-506); raises when write noise is on.  Draws are per
list position. -/
def Dev.resetAt (d : Dev K) : List Nat → (Nat → K) → Nat → Dev K
  | [], _, _ => d
  | i :: l, g, n =>
    Dev.resetAt (d.reset1 i (g n)) l g (n + 1)

/-- Execute an operation. -/
def Dev.step (F : Fns K) (d : Dev K) : Op K → Except PyErr (Dev K)
  | .set v g => .ok (d.mapSt fun k s => onSet d.kd d.par (d.cell k) s (v k) (g k))
  | .pulses l => .ok (d.pulses F l)
  | .decay nb g => .ok (d.mapSt fun k s =>
      onStored d.kd d.par (decayCell (d.cell k) (decayFactor d nb id k)) s (g k))
  | .decayAlpha a nb g => .ok (d.mapSt fun k s =>
      onStored d.kd d.par
        (decayCell (d.cell k) (decayFactor d nb (fun wd => 1 + a * (wd - 1)) k)) s (g k))
  | .diffuse g g2 => .ok (d.mapSt fun k s =>
      onStored d.kd d.par (diffuseCell (d.cell k) (g k)) s (g2 k))
  | .drift v g => .ok (d.mapSt fun k s =>
      onStored d.kd d.par (fun _ => clipXN (d.cell k) (v k)) s (g k))
  | .clip c g => .ok (d.mapSt fun k s =>
      onStored d.kd d.par (clipCell (d.cell k) c) s (g k))
  | .resetCols st n sel g g2 => .ok (d.mapSt fun k s =>
      onStored d.kd d.par (fun w =>
        if inCols d.xSize st (if 0 ≤ n then n else d.xSize) ((k % d.xSize : Nat) : Int) && sel k
        then resetCell d.par (d.cell k) (g k) else w) s (g2 k))
  | .resetAt idx g =>
      if persistent d.kd d.par then .error .runtimeError else .ok (d.resetAt idx g 0)
  | .setHidden cell per dtod g =>
      let par := { d.par with
        dwMin := newDwMin d.par.dwMin dtod (meanStep (d.xSize * d.dSize) cell) }
      .ok { d with
        par := par, cell := cell,
        st := fun k => onSet d.kd par (cell k)
          ⟨(d.st k).vis, if persistent d.kd par then per k else (d.st k).per⟩ (d.st k).vis (g k) }
  | .fpUpdate dw g => .ok (d.mapSt fun k s =>
      onStored d.kd d.par (clipMM (d.cell k)) ⟨s.vis + dw k, s.per⟩ (g k))

/-- Execute a history of operations; a failing operation stops it. -/
def Dev.run (F : Fns K) (d : Dev K) : List (Op K) → Except PyErr (Dev K)
  | [] => .ok d
  | o :: l => match d.step F o with
    | .error e => .error e
    | .ok d' => Dev.run F d' l

/-! ## Construction -/

/-- Population parameters (`PulsedRPUDeviceMetaParameter`). -/
structure PopPar (K : Type) where
  wMin : K
  wMax : K
  wMinDtod : K
  wMaxDtod : K
  dwMin : K
  dwMinDtod : K
  logNormal : Bool
  upDown : K
  upDownDtod : K
  enforce : Bool
  adjust : Bool
  adjustDev : K
  corruptProb : K
  corruptRange : K
  perfectBias : Bool
  lifetime : K
  lifetimeDtod : K
  diffusion : K
  diffusionDtod : K
  reset : K
  resetDtod : K

/-- The random draws of one cell, in the order of the code. -/
structure PopDraw (K : Type) where
  gMax : K
  gMin : K
  gGain : K
  gUpDown : K
  uCorrupt : K
  uValue : K
  gDiff : K
  gReset : K
  gLife : K

/-- `enforce_consistency` / "turn off" branch of `populate`
(rpu_pulsed_device.cpp:624-644): new (max, min). -/
def enforceBounds (p : PopPar K) (mx mn : K) : K × K :=
  if p.enforce then
    let (mx, mn) := if mx < mn then (mn, mx) else (mx, mn)
    (|mx|, -|mn|)
  else if mx < mn then
    let m := mx + (mn - mx) / 2
    (m, m)
  else (mx, mn)

/-- `adjust_bounds_with_up_down` (rpu_pulsed_device.cpp:646-678): new (max, min); `none` if the
bounds become NaN (`scale_up + scale_down = 0` with a positive deviation; without one the NaN
comparison falls into the last branch). `th` is `tanh`. -/
def adjustBounds (th : K → K) (p : PopPar K) (up down mx mn : K) : Option (K × K) :=
  if p.adjust then
    let (mx, mn) := if mx < mn then (mn, mx) else (mx, mn)
    let mm := mx - mn
    if up + down = 0 then
      if 0 < p.adjustDev then none else some (-mm + mm, -mm)
    else
      let al := up / (up + down)
      let nm := if 0 < p.adjustDev then -((th ((al - 1 / 2) / p.adjustDev) + 1) / 2) * mm
                else if al < 1 / 2 then 0
                else if al = 1 / 2 then -mm / 2
                else -mm
      some (nm + mm, nm)
  else some (mx, mn)

/-- `PulsedRPUDevice::populate` of one cell (rpu_pulsed_device.cpp:594-736).  `lastCol` says
whether the cell is in the last column; `expf`, `th` are the C functions.  The class specific
parameters are filled in by the subclasses, here 0.  The outer check
`w_min > 0 || w_max < 0` raises (line 611-613). -/
def populateCell (expf th : K → K) (p : PopPar K) (lastCol : Bool) (r : PopDraw K) :
    Except PyErr (Cell K) :=
  if 0 < p.wMin ∨ p.wMax < 0 then .error .runtimeError
  else
    let upBias := if 0 < p.upDown then 0 else p.upDown
    let downBias := if 0 < p.upDown then -p.upDown else 0
    let mx := p.wMax * (1 + p.wMaxDtod * r.gMax)
    let mn := p.wMin * (1 + p.wMinDtod * r.gMin)
    let gain := if p.logNormal then expf (p.dwMinDtod * r.gGain) else 1 + p.dwMinDtod * r.gGain
    let q := p.upDownDtod * r.gUpDown
    let up := (upBias + gain + q) * p.dwMin
    let down := (downBias + gain - q) * p.dwMin
    let up := if p.enforce then |up| else up
    let down := if p.enforce then |down| else down
    let e := enforceBounds p mx mn
    match adjustBounds th p up down e.1 e.2 with
    | none => .error .nanInf
    | some b =>
      let corrupt := decide (r.uCorrupt < p.corruptProb)
      let lo := max (min b.1 b.2) (-|p.corruptRange|)
      let hi := min (max b.1 b.2) |p.corruptRange|
      let value := lo + (hi - lo) * r.uValue
      let perfect := p.perfectBias && lastCol
      let life := p.lifetime * (1 + p.lifetimeDtod * r.gLife)
      .ok {
        maxB := if perfect then 100 * p.wMax else if corrupt then value else b.1
        minB := if perfect then 100 * p.wMin else if corrupt then value else b.2
        up := if perfect then p.dwMin else if corrupt then 0 else up
        down := if perfect then p.dwMin else if corrupt then 0 else down
        diff := |p.diffusion * (1 + p.diffusionDtod * r.gDiff)|
        resetB := p.reset + p.resetDtod * r.gReset
        decay := if 0 < p.lifetime then (if 1 < life then 1 - 1 / life else 0) else 1
        slopeUp := 0, slopeDown := 0, gamUp := 0, gamDown := 0, ref := 0 }

/-- A freshly created device: `populateParameter` ends with `onSetWeights` on the (given) weights
(rpu_pulsed.cpp:430-446). -/
def Dev.create (kd : Kind K) (p : Par K) (x d : Nat) (cell : Nat → Cell K) (w0 g : Nat → K) : Dev K :=
  ⟨kd, p, x, d, cell, fun k => onSet kd p (cell k) ⟨w0 k, 0⟩ (w0 k) (g k)⟩

end Aihw.Pulsed
