import Verif.Common
import Verif.Pulsed.BitLine
import Mathlib.Algebra.BigOperators.Group.Finset.Basic
import Mathlib.Algebra.Order.BigOperators.Group.Finset

/-!
# The analog forward and backward pass of the C++ tiles

Models src/rpucuda/rpu_forward_backward_pass.cpp and the I/O parameters of
src/rpucuda/rpu_pulsed_meta_parameter.{h,cpp}.

Simplifications (stated once):
* values are elements of an ordered field `K` with floor (no rounding errors, no overflow); `sq` is the
  square root;
* vectors are functions of which the first `size` entries count; sizes are positive;
* an infinite bound is `none`; a user-defined infinite bound makes the resolution infinite or NaN and is
  an error here;
* random numbers are arguments (`Draws`): uniform numbers `u ∈ [0, 1)` and Gaussian ones;
* strides, buffers, CUDA and half precision are not modelled; `RPU_FATAL` is `runtimeError`.
-/
open scoped BigOperators

namespace Aihw.CppFwd

open Aihw.Pulsed (rint)

variable {K : Type} [Field K] [LinearOrder K] [IsStrictOrderedRing K] [FloorRing K]

/-- `NoiseManagementType` (rpu_pulsed_meta_parameter.h:16-26). -/
inductive NM where
  | none | absMax | absMaxNPSum | max | constant | average | averageSingle | absMaxSingle
  deriving DecidableEq

/-- `BoundManagementType` (rpu_pulsed_meta_parameter.h:28). -/
inductive BM where
  | none | iterative | worstCase
  deriving DecidableEq

/-- `OutputWeightNoiseType` (rpu_pulsed_meta_parameter.h:30). -/
inductive WN where
  | none | additive | pcmRead
  deriving DecidableEq

/-- `AnalogMVType` (rpu_pulsed_meta_parameter.h:41-48). -/
inductive MV where
  | ideal | onePass | posNeg | posNegDigital | splitMode | bitWise
  deriving DecidableEq

/-- `IOMetaParameter` (rpu_pulsed_meta_parameter.h:50-109); after initialization the bounds may be
infinite and the resolutions are absolute steps. -/
structure IO (K : Type) where
  perfect : Bool
  mvType : MV
  wNoiseType : WN
  irDrop : K
  gRatio : K
  vOffStd : K
  vOffVec : List K
  vOffWMin : K
  rSeries : K
  rMaxTotal : K
  inpAsym : K
  outAsym : K
  wReadAsym : K
  inpBound : Option K
  inpRes : K
  inpSto : Bool
  inpNoise : K
  outNoise : K
  outNoiseStd : K
  wNoise : K
  outBound : Option K
  outRes : K
  outSto : Bool
  outScale : K
  outNL : K
  outNLStd : K
  outNLVec : List K
  slope : K
  nm : NM
  nmThres : K
  nmWmax : K
  nmDecay : K
  bm : BM
  bmTestNeg : Bool
  maxBmFactor : ℤ
  maxBmRes : K

/-- `hasVoltageOffsets` (rpu_pulsed_meta_parameter.h:112-114). -/
def IO.hasVO (io : IO K) : Bool :=
  decide (0 < io.vOffStd) || decide (0 < io.rSeries) || decide (0 < io.vOffVec.length)

/-- `isPerfect` (rpu_pulsed_meta_parameter.h:115). -/
def IO.isPerfect (io : IO K) : Bool := decide (io.mvType = .ideal) || io.perfect

/-- `hasOutNonlinearity` (rpu_pulsed_meta_parameter.h:116-118). -/
def IO.hasNL (io : IO K) : Bool :=
  (decide (0 < io.outNL) || decide (0 < io.outNLVec.length)) && !io.isPerfect

/-- `hasNLCalibration` (rpu_pulsed_meta_parameter.h:119). -/
def IO.hasNLCal (io : IO K) : Bool := io.hasNL || decide (0 < io.rSeries)

/-! ## Initialization -/

/-- `detail::checkRes` (rpu_pulsed_meta_parameter.cpp:26-29). -/
def checkRes (res : K) : K :=
  let r := if res < 0 then 0 else res
  if 1 < r then 1 / r else r

/-- `out_bound <= 0` becomes infinite. -/
def toBound (b : K) : Option K := if b ≤ 0 then none else some b

/-- `initializeForForward` and `initializeForBackward` (rpu_pulsed_meta_parameter.cpp:40-144) for
parameters that have not been initialized; `outSize` is `d_size` or `x_size`. -/
def initIO (fwd : Bool) (outSize : Nat) (io : IO K) : Except PyErr (IO K) :=
  if io.mvType = .ideal ∨ io.perfect = true then .ok { io with perfect := true, mvType := .ideal }
  else match io.outBound, io.inpBound with
    | some ob, some ib =>
      if io.nm ≠ .none ∧ ib ≠ 1 then .error .runtimeError
      else if 0 < io.vOffVec.length ∧ io.vOffVec.length ≠ outSize then .error .runtimeError
      else .ok { io with
        outRes := checkRes io.outRes * (2 * ob)
        inpRes := checkRes io.inpRes * (2 * ib)
        nmThres := if io.nm = .none then 0 else io.nmThres
        outBound := toBound ob
        inpBound := toBound ib
        bm := if fwd then io.bm else .none }
    | _, _ => .error .nanInf

/-- `MVParameter` (rpu_forward_backward_pass.h:14-23). -/
structure MVPar (K : Type) where
  vOff : Nat → K
  nl : Nat → K
  nlf : K
  wAsym : Nat → Nat → K
  outNoise : Nat → K

/-- The Gaussian numbers drawn at construction. -/
structure MVDraws (K : Type) where
  vOff : Nat → K
  nl : Nat → K
  wAsym : Nat → Nat → K
  outNoise : Nat → K

/-- `populateFBParameter` (rpu_forward_backward_pass.cpp:242-319) for one direction. -/
def populate (io : IO K) (outSize : Nat) (g : MVDraws K) : MVPar K :=
  let ob := io.outBound.getD 1
  let nl : Nat → K := if io.hasNLCal ∧ io.outNLVec.length ≠ outSize then
      fun i => |io.outNL / ob * (1 + max io.outNLStd 0 * g.nl i)|
    else fun i => io.outNLVec.getD i 0
  let sumNL := if io.hasNL then ∑ i ∈ Finset.range outSize, |nl i| else 0
  let f := 1 + (sumNL / (outSize : K) + io.rSeries) * io.slope * ob
  { vOff := if io.vOffVec.length ≠ outSize ∧ io.hasVO then fun i => max (io.vOffStd * g.vOff i) 0
      else fun i => io.vOffVec.getD i 0
    nl := nl
    nlf := if 0 < io.slope then f * f else 1
    wAsym := fun i j => 1 + io.wReadAsym * g.wAsym i j
    outNoise := fun i => |io.outNoise * (1 + io.outNoiseStd * g.outNoise i)| }

/-! ## Noise management -/

/-- `|input[iamax]|`. -/
def amax (n : Nat) (x : Nat → K) : K := (List.range n).foldl (fun m i => max m |x i|) 0

/-- `RPU::math::max` (math_util.cpp:106-117). -/
def vmax (n : Nat) (x : Nat → K) : K := (List.range n).foldl (fun m i => if m < x i then x i else m) (x 0)

/-- `nm_thres > 0 ? MIN(v, nm_thres) : v`. -/
def IO.cap (io : IO K) (v : K) : K := if 0 < io.nmThres then min v io.nmThres else v

/-- Case `AbsMaxNPSum` (rpu_forward_backward_pass.cpp:151-175). -/
def IO.npSum (io : IO K) (n : Nat) (x : Nat → K) : K :=
  let a := io.cap (amax n x)
  let ps := ∑ j ∈ Finset.range n, if 0 < x j then x j else 0
  let ns := ∑ j ∈ Finset.range n, if x j < 0 then x j else 0
  let s := max ps (-ns) * io.nmWmax / io.outBound.getD 1
  let s := if 0 < io.inpRes then min (a / io.inpRes * io.maxBmRes) s else s
  max a s

/-- `computeNoiseManagement` (rpu_forward_backward_pass.cpp:112-180): value and auxiliary variable. -/
def IO.computeNM (io : IO K) (n : Nat) (x : Nat → K) (aux : K) : Except PyErr (K × K) :=
  match io.nm with
  | .none => .ok (1, aux)
  | .absMax => .ok (io.cap (amax n x), aux)
  | .constant => .ok (if 0 < io.nmThres then io.nmThres else 1, aux)
  | .max => .ok (io.cap (vmax n x), aux)
  | .average | .averageSingle =>
    let a := if aux < 0 then amax n x else aux * (1 - io.nmDecay) + io.nmDecay * amax n x
    .ok (a, a)
  | .absMaxNPSum => .ok (io.npSum n x, aux)
  | .absMaxSingle => .error .runtimeError

/-! ## Non-idealities -/

/-- `w` or its transpose, as a matrix from inputs to outputs. -/
def eff (tr : Bool) (w : Nat → Nat → K) (i j : Nat) : K := if tr then w j i else w i j

/-- `gemv` with alpha = 1, beta = 0 (rpu_forward_backward_pass.cpp:39-61). -/
def mv (n : Nat) (m : Nat → Nat → K) (x : Nat → K) (i : Nat) : K := ∑ j ∈ Finset.range n, m i j * x j

/-- `computeTotalCurrent` (rpu_forward_backward_pass.cpp:509-532). -/
def current (n : Nat) (m : Nat → Nat → K) (x : Nat → K) (i : Nat) : K :=
  ∑ j ∈ Finset.range n, |m i j| * |x j|

/-- `applyIrDrop` (rpu_forward_backward_pass.cpp:385-433). -/
def IO.irDropped (io : IO K) (n : Nat) (m : Nat → Nat → K) (x y : Nat → K) (i : Nat) : K :=
  let a := (n : K) / io.gRatio * current n m x i
  let c := a * (a * (5 / 100 * a - 2 / 10) + 5 / 10)
  let x' := fun j => x j * (1 - (1 - (j : K) / (n : K)) * (1 - (j : K) / (n : K)))
  y i - c * (io.irDrop * mv n m x' i)

/-- `applyVoltageOffsets` (rpu_forward_backward_pass.cpp:435-507). -/
def IO.voltage (io : IO K) (p : MVPar K) (n : Nat) (x y : Nat → K) (i : Nat) : K :=
  let rs := max io.rSeries 0
  if io.vOffWMin = 0 then
    if rs ≤ 0 then y i * (1 - p.vOff i)
    else (1 - p.vOff i) * y i / (1 + min (rs * |y i|) io.rMaxTotal)
  else
    let xa := ∑ j ∈ Finset.range n, x j
    if rs ≤ 0 then y i * (1 - p.vOff i) - p.vOff i * (-io.vOffWMin * xa * 2)
    else
      let yr := -io.vOffWMin * xa
      let yp := y i + yr
      (1 - p.vOff i) * yp / (1 + min (rs * |yp|) io.rMaxTotal) -
        (1 + p.vOff i) * yr / (1 + min (rs * |yr|) io.rMaxTotal)

/-- `applyOutputWeightNoise` (rpu_forward_backward_pass.cpp:326-383); `g` are the Gaussian numbers. -/
def IO.weightNoise (io : IO K) (sq : K → K) (n : Nat) (m : Nat → Nat → K) (x : Nat → K) (g : Nat → K)
    (y : Nat → K) (i : Nat) : K :=
  match io.wNoiseType with
  | .none => y i
  | .additive =>
    if 0 < io.wNoise then y i + io.wNoise * sq (∑ j ∈ Finset.range n, x j * x j) * g i else y i
  | .pcmRead =>
    if 0 < io.wNoise then
      y i + io.wNoise * sq (∑ j ∈ Finset.range n, |m i j| * (x j * x j)) * g i else y i

/-- `computeAnalogMVSinglePass` with `applyNonIdealities` (rpu_forward_backward_pass.cpp:534-566,
787-806). -/
def IO.singlePass (io : IO K) (sq : K → K) (p : MVPar K) (n : Nat) (m : Nat → Nat → K) (x : Nat → K)
    (g : Nat → K) : Nat → K :=
  let y := mv n m x
  let y := if 0 < io.irDrop then io.irDropped n m x y else y
  let y := if io.hasVO then io.voltage p n x y else y
  io.weightNoise sq n m x g y

/-! ## Converters -/

/-- `getDiscretizedValueSR` (utility_functions.h:204-210). -/
def disc (sto : Bool) (res u v : K) : K :=
  if res ≤ 0 then v
  else if sto then ((rint (v / res + (u - 1 / 2)) : ℤ) : K) * res else ((rint (v / res) : ℤ) : K) * res

/-- Clipping at plus and minus the bound, in this order. -/
def clipB (b : Option K) (v : K) : K :=
  match b with
  | none => v
  | some b =>
    let v := if b < v then b else v
    if v < -b then -b else v

/-- `v < 0 ? v * (1 - a) : v`. -/
def asymm (a v : K) : K := if v < 0 then v * (1 - a) else v

/-- `prepareInput` on one element (rpu_forward_backward_pass.cpp:571-655). -/
def IO.prepare (io : IO K) (scale : K) (scaling : Bool) (u g v : K) : K :=
  let v := if scaling then v * scale else v
  let v := clipB io.inpBound (disc io.inpSto io.inpRes u v)
  let v := if 0 < io.inpNoise then v + io.inpNoise * g else v
  if io.inpAsym ≠ 0 then asymm io.inpAsym v else v

/-- `finalizeOutputImplStage5` on one element before the bound (rpu_forward_backward_pass.cpp:673-705).
The noise branch is always taken (rpu_forward_backward_pass.cpp:749-755). -/
def IO.adc (io : IO K) (p : MVPar K) (i : Nat) (u g v : K) : K :=
  let v := if io.hasNLCal then p.nlf * v / (1 + |p.nl i * v|) else v
  let v := if 0 < io.outAsym then asymm io.outAsym v else v
  let v := v + (if 0 < io.outNoiseStd then p.outNoise i else io.outNoise) * g
  disc io.outSto io.outRes u v

/-- `value > bound` -/
def above (b : Option K) (v : K) : Bool :=
  match b with
  | none => false
  | some b => decide (b < v)

/-- `value < -bound` -/
def below (b : Option K) (v : K) : Bool :=
  match b with
  | none => false
  | some b => decide (v < -b)

/-- The bound test of `finalizeOutputImplStage5` (rpu_forward_backward_pass.cpp:706-718): a loop over
the outputs which assigns the result. -/
def IO.boundTest (io : IO K) (m : Nat) (v : Nat → K) : Bool :=
  if io.bm = .none then true
  else (List.range m).foldl (fun b i =>
    if above io.outBound (v i) then false
    else if below io.outBound (v i) then !io.bmTestNeg else b) true

/-- All random numbers of one matrix-vector product; the last three have one set per analog pass. -/
structure Draws (K : Type) where
  inU : Nat → K
  inG : Nat → K
  wG : Bool → Nat → K
  outU : Bool → Nat → K
  outG : Bool → Nat → K

/-- `finalizeOutput` (rpu_forward_backward_pass.cpp:761-777) of pass `b`: result and bound test. -/
def IO.finalize (io : IO K) (p : MVPar K) (m : Nat) (dr : Draws K) (b : Bool) (y : Nat → K) :
    (Nat → K) × Bool :=
  let v := fun i => io.adc p i (dr.outU b i) (dr.outG b i) (y i)
  (fun i => clipB io.outBound (v i), io.boundTest m v)

/-- `computeAnalogMV` (rpu_forward_backward_pass.cpp:800-898); `n` inputs, `m` outputs; pass `false` is
the negative pass of the separated modes. -/
def IO.analogMV (io : IO K) (sq : K → K) (p : MVPar K) (n m : Nat) (tr : Bool) (w : Nat → Nat → K)
    (dr : Draws K) (scale : K) (scaling : Bool) (x : Nat → K) : Except PyErr ((Nat → K) × Bool) :=
  let xin := fun j => io.prepare scale scaling (dr.inU j) (dr.inG j) (x j)
  let wneg := if 0 < io.wReadAsym then fun i j => w i j * p.wAsym i j else w
  let xn := fun j => if xin j < 0 then xin j else 0
  let xp := fun j => if 0 < xin j then xin j else 0
  match io.mvType with
  | .onePass => .ok (io.finalize p m dr true (io.singlePass sq p n (eff tr w) xin (dr.wG true)))
  | .posNegDigital =>
    let a := io.finalize p m dr false (io.singlePass sq p n (eff tr wneg) xn (dr.wG false))
    let b := io.finalize p m dr true (io.singlePass sq p n (eff tr w) xp (dr.wG true))
    .ok (fun i => b.1 i + a.1 i, b.2 && a.2)
  | .posNeg =>
    let a := io.singlePass sq p n (eff tr wneg) xn (dr.wG false)
    let b := io.singlePass sq p n (eff tr w) xp (dr.wG true)
    .ok (io.finalize p m dr true fun i => b i + a i)
  | _ => .error .runtimeError

/-! ## Bound management -/

/-- Variables of the loop: round, noise management value, reduction of the last round. -/
structure LoopSt (K : Type) where
  round : Nat
  nmv : K
  red : K

/-- Head of the loop body (rpu_forward_backward_pass.cpp:946-956): reduction and, in the second round of
the worst-case mode, another noise management value. -/
def IO.nextRound (io : IO K) (n : Nat) (x : Nat → K) (s : LoopSt K) : LoopSt K :=
  if s.round = 1 ∧ io.bm = .worstCase ∧ io.nm ≠ .absMaxNPSum then ⟨2, io.npSum n x, 1⟩
  else ⟨s.round + 1, s.nmv, s.red * 2⟩

/-- Scale of a round (rpu_forward_backward_pass.cpp:958-969). -/
def IO.scaleOf (io : IO K) (s : LoopSt K) : K :=
  let sc := if io.nm ≠ .none ∧ 0 < s.nmv then 1 / s.nmv else 1
  if io.bm ≠ .none then sc / s.red else sc

/-- Whether the inputs are scaled. -/
def IO.scalingOf (io : IO K) (s : LoopSt K) : Bool :=
  decide (io.nm ≠ .none ∧ 0 < s.nmv) || decide (io.bm ≠ .none)

/-- The limits of the bound management (rpu_forward_backward_pass.cpp:975-982). -/
def IO.limit (io : IO K) (red : K) : Bool :=
  decide (io.maxBmFactor < ⌊red⌋) || (decide (0 < io.inpRes) && decide (io.maxBmRes / io.inpRes < red))

/-- The loop (rpu_forward_backward_pass.cpp:944-983).  `fuel` is never exhausted
(`C62_terminates`). `dr k` are the random numbers of round `k`. -/
def IO.bmLoop (io : IO K) (sq : K → K) (p : MVPar K) (n m : Nat) (w : Nat → Nat → K) (x : Nat → K)
    (dr : Nat → Draws K) : Nat → LoopSt K → Except PyErr ((Nat → K) × LoopSt K)
  | 0, _ => .error .other
  | f + 1, s =>
    let s' := io.nextRound n x s
    match io.analogMV sq p n m false w (dr s.round) (io.scaleOf s') (io.scalingOf s') x with
    | .error e => .error e
    | .ok r =>
      if io.bm = .none ∨ r.2 = true ∨ io.limit s'.red = true then .ok (r.1, s')
      else io.bmLoop sq p n m w x dr f s'

/-- Enough rounds. -/
def IO.fuel (io : IO K) : Nat := io.maxBmFactor.toNat + 3

/-! ## The passes -/

/-- `ForwardBackwardPassIOManaged` (rpu_forward_backward_pass.h:88-246). -/
structure Pass (K : Type) where
  X : Nat
  D : Nat
  f : IO K
  b : IO K
  fm : MVPar K
  bm : MVPar K

/-- `forwardVector` (rpu_forward_backward_pass.cpp:900-988): the outputs and the auxiliary variable of
the average noise management. -/
def Pass.forward (t : Pass K) (sq : K → K) (w : Nat → Nat → K) (al : K) (dr : Nat → Draws K)
    (x : Nat → K) (aux : K) : Except PyErr ((Nat → K) × K) :=
  if t.f.isPerfect then .ok (fun i => t.f.outScale * al * mv t.X w x i, aux)
  else match t.f.computeNM t.X x aux with
    | .error e => .error e
    | .ok (v, aux') =>
      if t.f.nm ≠ .none ∧ v ≤ 0 ∧ t.f.inpNoise ≤ 0 then .ok (fun _ => 0, aux')
      else match t.f.bmLoop sq t.fm t.X t.D w x dr t.f.fuel ⟨0, v, 1 / 2⟩ with
        | .error e => .error e
        | .ok (y, s) =>
          if t.f.scalingOf s = true ∨ t.f.outScale * al ≠ 1 then
            .ok (fun i => t.f.outScale * al / t.f.scaleOf s * y i, aux')
          else .ok (y, aux')

/-- `backwardVector` (rpu_forward_backward_pass.cpp:990-1029). -/
def Pass.backward (t : Pass K) (sq : K → K) (w : Nat → Nat → K) (al : K) (dr : Draws K)
    (d : Nat → K) (aux : K) : Except PyErr ((Nat → K) × K) :=
  if t.b.isPerfect then .ok (fun j => t.b.outScale * al * mv t.D (eff true w) d j, aux)
  else
    let io := { t.b with bm := .none }
    match io.computeNM t.D d aux with
    | .error e => .error e
    | .ok (v, aux') =>
      if io.nm ≠ .none ∧ v ≤ 0 then .ok (fun _ => 0, aux')
      else
        let scaling := decide (io.nm ≠ .none ∧ 0 < v)
        match io.analogMV sq t.bm t.D t.X true w dr (1 / v) scaling d with
        | .error e => .error e
        | .ok r =>
          if scaling = true ∨ io.outScale * al ≠ 1 then .ok (fun j => io.outScale * al * v * r.1 j, aux')
          else .ok (r.1, aux')

end Aihw.CppFwd
