import Verif.GpuNm.Model

/-!
# The analog pass on the GPU

Models src/rpucuda/cuda/io_manager.{h,cu} and src/rpucuda/cuda/forward_backward_pass.{h,cu}: a batch of
inputs in one of two layouts goes through the input converters, the matrix product with its
non-idealities, the output converters, and bound management.

Simplifications (stated once):
* values are elements of an ordered field (no rounding); infinite bounds are `none`; an array on the
  device is a function from indices;
* a kernel with a stride loop is a map over the indices below its size (`mapTo`); that this is the same for
  every number of threads and every order is the theorem `C99_stride_loop`;
* the random number which is used for an index is arbitrary (in the code it comes from the state of the
  thread);
* the iterators for convolutions are not modelled (inputs and outputs are plain arrays), nor is the perfect
  short-cut's choice between them;
* the counter of exceeded bounds is only compared with zero, and modelled as whether it is positive;
* parameters of inputs and outputs are those of the CPU model (`CppFwd.IO`, `CppFwd.MVPar`).
-/
open scoped BigOperators

namespace Aihw.GpuIo

open Aihw.CppFwd (MVPar)
open Aihw.Pulsed (rint)
open Aihw.GpuNm (Man Req nBlocks)

variable {K : Type} [Field K] [LinearOrder K] [IsStrictOrderedRing K] [FloorRing K]

/-- An array on the device. -/
abbrev Arr (K : Type) := ℕ → K

/-! ## Kernels -/

/-- The indices visited by `STRIDE_LOOP` (io_manager.cu:73-83) and `RPU_CUDA_1D_KERNEL_LOOP`: thread by
thread. -/
def visits (threads size : ℕ) : List ℕ :=
  (List.range threads).flatMap fun tid =>
    ((List.range (nBlocks size threads)).map fun k => k * threads + tid).filter fun idx => decide (idx < size)

/-- The loop in some order; `input` and `output` are different arrays (io_manager.cu:73-83). -/
def loopOut (order : List ℕ) (body : ℕ → K → K) (input out : Arr K) : Arr K :=
  order.foldl (fun mem idx => Function.update mem idx (body idx (input idx))) out

/-- The loop in some order; in place (for instance forward_backward_pass.cu:583-596). -/
def loopIn (order : List ℕ) (body : ℕ → K → K) (mem : Arr K) : Arr K :=
  order.foldl (fun mem idx => Function.update mem idx (body idx (mem idx))) mem

/-- A kernel over `size` elements. -/
def mapTo (size : ℕ) (body : ℕ → K → K) (input out : Arr K) : Arr K :=
  fun idx => if idx < size then body idx (input idx) else out idx

/-! ## Matrix products -/

/-- Element `(i, l)` of a column-major matrix or its transpose. -/
def at2 (t : Bool) (A : Arr K) (ld i l : ℕ) : K := if t then A (i * ld + l) else A (l * ld + i)

/-- `RPU::math::gemm` on the device, column-major, `beta = 0`. -/
def gemm (ta tb : Bool) (M N L : ℕ) (alpha : K) (A : Arr K) (lda : ℕ) (B : Arr K) (ldb : ℕ) (C : Arr K)
    (ldc : ℕ) : Arr K := fun p =>
  if p % ldc < M ∧ p / ldc < N then
    alpha * ∑ l ∈ Finset.range L, at2 ta A lda (p % ldc) l * at2 tb B ldb l (p / ldc)
  else C p

/-- `RPU::math::gemv` on the device, column-major, `M` rows and `N` columns, `beta = 0`. -/
def gemv (t : Bool) (M N : ℕ) (alpha : K) (A : Arr K) (lda : ℕ) (x y : Arr K) : Arr K := fun i =>
  if i < (if t then N else M) then
    alpha * ∑ l ∈ Finset.range (if t then M else N), at2 t A lda i l * x l
  else y i

/-- `RPU::detail::forwardMatrix` (forward_backward_pass.h:16-52). -/
def forwardMatrix (W X : Arr K) (xSz : ℕ) (xT : Bool) (D : Arr K) (dSz : ℕ) (dT : Bool) (m : ℕ) (alpha : K) :
    Arr K :=
  if m = 1 then gemv false dSz xSz alpha W dSz X D
  else if dT then gemm (!xT) true m dSz xSz alpha X (if xT then m else xSz) W dSz D m
  else gemm false xT dSz m xSz alpha W dSz X (if xT then m else xSz) D dSz

/-- `RPU::detail::backwardMatrix` (forward_backward_pass.h:54-89). -/
def backwardMatrix (W D : Arr K) (dSz : ℕ) (dT : Bool) (X : Arr K) (xSz : ℕ) (xT : Bool) (m : ℕ) (alpha : K) :
    Arr K :=
  if m = 1 then gemv true dSz xSz alpha W dSz D X
  else if xT then gemm (!dT) false m xSz dSz alpha D (if dT then m else dSz) W dSz X m
  else gemm true dT xSz m dSz alpha W dSz D (if dT then m else dSz) X xSz

/-! ## A pass -/

/-- What is fixed during a pass: sizes, batch, direction (`transposed`), layouts, weights (column-major),
parameters, values per output, and the scale of the outputs. -/
structure Ctx (K : Type) where
  xSz : ℕ
  dSz : ℕ
  m : ℕ
  tr : Bool
  inT : Bool
  outT : Bool
  W : Arr K
  io : CppFwd.IO K
  p : MVPar K
  alpha : K

/-- `in_size` -/
def Ctx.nIn (c : Ctx K) : ℕ := if c.tr then c.dSz else c.xSz

/-- `out_size` -/
def Ctx.nOut (c : Ctx K) : ℕ := if c.tr then c.xSz else c.dSz

/-- The sample of an index of an array with `size` elements per sample (io_manager.cu:217, :366). -/
def sampleOf (trans : Bool) (m size idx : ℕ) : ℕ := if trans then idx % m else idx / size

/-- The output of an index (forward_backward_pass.cu:584). -/
def outputOf (trans : Bool) (m size idx : ℕ) : ℕ := if trans then idx / m else idx % size

/-- `gemm` of the pass (forward_backward_pass.h:270-293). -/
def Ctx.product (c : Ctx K) (W inp out : Arr K) (alpha : K) : Arr K :=
  if c.tr then backwardMatrix W inp c.dSz c.inT out c.xSz c.outT c.m alpha
  else forwardMatrix W inp c.xSz c.inT out c.dSz c.outT c.m alpha

/-- `temp_out_scale_` (io_manager.cu:686). -/
def Ctx.outScale (c : Ctx K) : K := c.alpha * c.io.outScale

/-! ## Input converters -/

/-- `APPLY_INPUT_NOISE_MANAGMENT` (io_manager.cu:86-89); `none` if there is none. -/
def inScaled (s : Option K) (v : K) : K :=
  match s with
  | none => v
  | some s => if 0 < s then v / s else v

/-- `DISCRETIZE_VALUE_STOCH` (io_manager.cu:37-45). -/
def discretize (res : K) (sr : Bool) (u v : K) : K :=
  if 0 < res then
    let v := v / res
    let v := if sr then v + (u - 1 / 2) else v
    res * ((rint v : ℤ) : K)
  else v

/-- `ADD_NOISE` (io_manager.cu:47-50). -/
def addNoise (std g v : K) : K := if 0 < std then v + std * g else v

/-- `APPLY_ASYMMETRY` (io_manager.cu:52-55). -/
def applyAsym (a v : K) : K := if a ≠ 0 then (if v < 0 then v * (1 - a) else v) else v

/-- `BOUND_CHECK` (io_manager.cu:63-67). -/
def boundCheck (b : Option K) (v : K) : K :=
  match b with
  | none => v
  | some b =>
    let v := if b < v then b else v
    if v < -b then -b else v

/-- Body of `kernelInputManagement`, `kernelInputManagementBatch` and the input kernels with bound
management (io_manager.cu:166-177, :213-227, :270-281, :363-375). -/
def inputBody (io : CppFwd.IO K) (s : Option K) (u g v : K) : K :=
  let v := inScaled s v
  let v := discretize io.inpRes (io.inpSto && decide (0 < io.inpRes)) u v
  let v := addNoise io.inpNoise g v
  let v := boundCheck io.inpBound v
  applyAsym io.inpAsym v

/-- Body of `kernelInputManagement_noSR` (io_manager.cu:121-131). -/
def inputBodyNoSR (io : CppFwd.IO K) (s : Option K) (v : K) : K :=
  let v := inScaled s v
  let v := discretize io.inpRes false 0 v
  let v := boundCheck io.inpBound v
  applyAsym io.inpAsym v

/-- `applyToInput` without bound management (io_manager.cu:810-841). -/
def Ctx.applyInput (c : Ctx K) (nm : Option (Arr K)) (u g x buf : Arr K) : Arr K :=
  if c.m = 1 then
    (if c.io.inpSto || decide (0 < c.io.inpNoise) then
      mapTo c.nIn (fun idx => inputBody c.io (nm.map fun s => s 0) (u idx) (g idx)) x buf
    else mapTo c.nIn (fun _ => inputBodyNoSR c.io (nm.map fun s => s 0)) x buf)
  else mapTo (c.nIn * c.m)
    (fun idx => inputBody c.io (nm.map fun s => s (sampleOf c.inT c.m c.nIn idx)) (u idx) (g idx)) x buf

/-! ## Non-idealities -/

/-- `applyIrDrop` (forward_backward_pass.cu:486-565). -/
def Ctx.irDrop (c : Ctx K) (W inp out : Arr K) : Arr K :=
  let absW : Arr K := fun i => |W i|
  let absIn : Arr K := fun i => |inp i|
  let a := c.product absW absIn out ((c.nIn : K) / c.io.gRatio)
  let pos := mapTo (c.nIn * c.m) (fun idx v =>
    let z := 1 - ((if c.inT then idx / c.m else idx % c.nIn : ℕ) : K) / (c.nIn : K)
    v * (1 - z * z)) inp absIn
  let q := c.product W pos out c.io.irDrop
  mapTo (c.nOut * c.m) (fun idx v =>
    v - a idx * (a idx * (5 / 100 * a idx - 2 / 10) + 5 / 10) * q idx) out out

/-- `y_ref` (forward_backward_pass.cu:626-643). -/
def Ctx.yRef (c : Ctx K) (inp : Arr K) : Arr K :=
  gemv (!c.inT) (if c.inT then c.m else c.nIn) (if c.inT then c.nIn else c.m) (-c.io.vOffWMin) inp
    (if c.inT then c.m else c.nIn) (fun _ => 1) fun _ => 0

/-- Body of `kernelOutputVoffsetBatch` (forward_backward_pass.cu:583-596). -/
def voltBody (rs rmax vOff yr y : K) : K :=
  let yp := y + yr
  if 0 < rs then
    (1 - vOff) * (yp / (1 + min (rs * |yp|) rmax)) - (1 + vOff) * (yr / (1 + min (rs * |yr|) rmax))
  else (1 - vOff) * yp - (1 + vOff) * yr

/-- `applyVoltageOffsets` (forward_backward_pass.cu:599-652). -/
def Ctx.voltage (c : Ctx K) (inp out : Arr K) : Arr K :=
  mapTo (c.nOut * c.m) (fun idx v =>
    voltBody (max c.io.rSeries 0) c.io.rMaxTotal (c.p.vOff (outputOf c.outT c.m c.nOut idx))
      (if c.io.vOffWMin ≠ 0 then c.yRef inp (sampleOf c.outT c.m c.nOut idx) else 0) v) out out

/-- `applyOutputWeightNoise` (forward_backward_pass.cu:270-343). -/
def Ctx.weightNoise (c : Ctx K) (sq : K → K) (g inp out : Arr K) : Arr K :=
  if c.io.wNoise ≤ 0 then out
  else if c.m = 1 then
    let norm := sq (∑ j ∈ Finset.range c.nIn, inp j * inp j)
    mapTo c.nOut (fun idx v => v + norm * c.io.wNoise * g idx) out out
  else
    let var := gemm false c.inT 1 c.m c.nIn (c.io.wNoise * c.io.wNoise) (fun _ => 1) 1
      (fun i => inp i * inp i) (if c.inT then c.m else c.nIn) (fun _ => 0) 1
    mapTo (c.nOut * c.m) (fun idx v => v + g idx * sq (var (sampleOf c.outT c.m c.nOut idx))) out out

/-- `applyOutputPCMReadNoise` (forward_backward_pass.cu:345-401). -/
def Ctx.pcmNoise (c : Ctx K) (sq : K → K) (W g inp out : Arr K) : Arr K :=
  if c.io.wNoise ≤ 0 then out
  else
    let absW : Arr K := fun i => |W i|
    let var := c.product absW (fun i => inp i * inp i) out (c.io.wNoise * c.io.wNoise)
    mapTo (c.nOut * c.m) (fun idx v => v + g idx * sq (var idx)) out out

/-- The noise of the weights (forward_backward_pass.cu:679-697). -/
def Ctx.wNoise (c : Ctx K) (sq : K → K) (W g inp out : Arr K) : Arr K :=
  match c.io.wNoiseType with
  | .none => out
  | .additive => c.weightNoise sq g inp out
  | .pcmRead => c.pcmNoise sq W g inp out

/-- `computeAnalogMVSinglePass` (forward_backward_pass.cu:654-698). -/
def Ctx.singlePass (c : Ctx K) (sq : K → K) (W g inp out : Arr K) : Arr K :=
  let y := c.product W inp out 1
  let y := if 0 < c.io.irDrop then c.irDrop W inp y else y
  let y := if c.io.hasVO then c.voltage inp y else y
  c.wNoise sq W g inp y

/-! ## Output converters -/

/-- `applyOutputNonLinearity` (forward_backward_pass.cu:440-484). -/
def Ctx.nonLinearity (c : Ctx K) (out : Arr K) : Arr K :=
  mapTo (c.nOut * c.m) (fun idx v =>
    c.p.nlf * v / (1 + |c.p.nl (outputOf c.outT c.m c.nOut idx) * v|)) out out

/-- `applyOutputNoiseOtoO` (forward_backward_pass.cu:403-438). -/
def Ctx.noiseOtoO (c : Ctx K) (g out : Arr K) : Arr K :=
  mapTo (c.nOut * c.m) (fun idx v => v + g idx * c.p.outNoise (outputOf c.outT c.m c.nOut idx)) out out

/-- `APPLY_OUTPUT_NOISE_MANAGMENT` (io_manager.cu:91-94). -/
def outScaled (s : Option K) (v : K) : K :=
  match s with
  | none => v
  | some s => if 0 < s then v * s else 0

/-- Body of `kernelOutputManagement` (io_manager.cu:403-420). -/
def outputBody (io : CppFwd.IO K) (std : K) (s : Option K) (u g v : K) : K :=
  let v := applyAsym io.outAsym v
  let v := addNoise std g v
  let v := discretize io.outRes io.outSto u v
  outScaled s (boundCheck io.outBound v)

/-- The value before the bound check in the other output kernels (io_manager.cu:454-460, :507-513,
:580-586). -/
def converted (io : CppFwd.IO K) (std u g v : K) : K :=
  let v := addNoise std g v
  let v := applyAsym io.outAsym v
  discretize io.outRes io.outSto u v

/-- Body of `kernelOutputManagementBatch` (io_manager.cu:446-470). -/
def outputBodyBatch (io : CppFwd.IO K) (std : K) (s : Option K) (u g v : K) : K :=
  outScaled s (boundCheck io.outBound (converted io std u g v))

/-- `applyToOutput` without bound management (io_manager.cu:899-929). -/
def Ctx.applyOutput (c : Ctx K) (std : K) (nm : Option (Arr K)) (u g v out : Arr K) : Arr K :=
  if c.m = 1 then
    mapTo c.nOut (fun idx v => outputBody c.io std (nm.map fun s => s 0) (u idx) (g idx) v * c.outScale) v out
  else mapTo (c.nOut * c.m) (fun idx v =>
    outputBodyBatch c.io std (nm.map fun s => s (sampleOf c.outT c.m c.nOut idx)) (u idx) (g idx) v
      * c.outScale) v out

/-- `value > bu` -/
def above (b : Option K) (v : K) : Bool :=
  match b with
  | none => false
  | some b => decide (b < v)

/-- `value < bl` after the upper bound check. -/
def below (b : Option K) (v : K) : Bool :=
  match b with
  | none => false
  | some b => decide ((if b < v then b else v) < -b)

/-! ## Bound management -/

/-- The members of `InputOutputManager` which change during a pass (io_manager.h:86-131): the scales, which
samples exceeded the bound, whether any did, reduction and round; which buffer the inputs are written to
(`true`: that of the separated inputs), and both buffers. -/
structure St (K : Type) where
  man : Man K
  scales : Arr K
  exceeded : ℕ → Bool
  any : Bool
  red : K
  round : ℕ
  inPN : Bool
  buf : Arr K
  bufPN : Arr K

/-- `getInBuffer` -/
def St.inBuf (s : St K) : Arr K := if s.inPN then s.bufPN else s.buf

/-- Writing to the buffer of the inputs. -/
def St.setIn (s : St K) (v : Arr K) : St K := if s.inPN then { s with bufPN := v } else { s with buf := v }

/-- The random numbers of a round: input converters, and weights and output converters of the passes
(`false` is the negative one). -/
structure Draws (K : Type) where
  inU : Arr K
  inG : Arr K
  wG : Bool → Arr K
  outU : Bool → Arr K
  outG : Bool → Arr K

/-- `noise_management != None ? getScaleValues() : nullptr`, as in `LAUNCH_NM_KERNEL` (io_manager.cu:612-617). -/
def Ctx.nmValues (c : Ctx K) (man : Man K) : Option (Arr K) :=
  if c.io.nm ≠ .none then some (man.values.getD fun _ => 0) else none

/-- Head of `applyToInputWithBoundManagement` (io_manager.cu:733-748): round, reduction, and the worst case
values in the second round. -/
def Ctx.nextRound (c : Ctx K) (nth : ℕ) (lowest : K) (r : Req K) (s : St K) : Except PyErr (St K) :=
  let s := { s with red := s.red * 2, round := s.round + 1 }
  if s.round = 2 ∧ c.io.bm = .worstCase then
    (if c.io.nm ≠ .absMaxNPSum then
      match s.man.compute c.nIn nth lowest .absMaxNPSum c.io r with
      | .ok man => .ok { s with man := man, red := 1 }
      | .error e => .error e
    else .ok { s with red := 1 })
  else .ok s

/-- New scales for the samples that exceeded the bound (`kernelUpdateScaleValuesAndInitialize`,
io_manager.cu:308-329). -/
def rescale (m : ℕ) (nm : Option (Arr K)) (red : K) (exceeded : ℕ → Bool) (scales : Arr K) : Arr K :=
  fun b => if b < m ∧ exceeded b then
      (match nm with
      | some v => if 0 < v b then v b * red else red
      | none => scales b * red)
    else scales b

/-- The scales of a round (io_manager.cu:754-793, :262-268, :285-288). -/
def Ctx.roundScales (c : Ctx K) (s : St K) : Arr K :=
  if c.m = 1 then fun _ => (if c.io.nm ≠ .none then (s.man.values.getD fun _ => 0) 0 else 1) * s.red
  else if s.round = 1 then (if c.io.nm ≠ .none then s.man.values.getD fun _ => 0 else fun _ => 1)
  else rescale c.m s.man.values s.red s.exceeded s.scales

/-- Inputs with bound management, after the head (io_manager.cu:752-796). -/
def Ctx.inputBM (c : Ctx K) (dr : Draws K) (x : Arr K) (s : St K) : St K :=
  let sc := c.roundScales s
  let v := mapTo (c.nIn * c.m) (fun idx =>
    inputBody c.io (some (sc (sampleOf c.inT c.m c.nIn idx))) (dr.inU idx) (dr.inG idx)) x s.inBuf
  { s.setIn v with scales := sc, exceeded := fun _ => false, any := false }

/-- Whether the kernels count a value as exceeding the bound: that for a single sample does not if negative
values are to be tested (io_manager.cu:515-524), that for a batch does (io_manager.cu:588-599). -/
def Ctx.counts (c : Ctx K) (v : K) : Bool :=
  above c.io.outBound v || (below c.io.outBound v && (if c.m = 1 then !c.io.bmTestNeg else c.io.bmTestNeg))

/-- `kernelOutputBoundManagement` and `kernelOutputBoundManagementBatch`: the outputs
(io_manager.cu:504-535, :574-610). -/
def Ctx.outputBM (c : Ctx K) (std : K) (u g v out : Arr K) (s : St K) : Arr K :=
  mapTo (c.nOut * c.m) (fun idx v =>
    outScaled (some (s.scales (sampleOf c.outT c.m c.nOut idx)))
      (boundCheck c.io.outBound (converted c.io std (u idx) (g idx) v)) * c.outScale) v out

/-- The samples which exceed the bound. -/
def Ctx.markBM (c : Ctx K) (std : K) (u g v : Arr K) (s : St K) : St K :=
  let over : ℕ → Bool := fun idx => c.counts (converted c.io std (u idx) (g idx) (v idx))
  { s with
    exceeded := fun b => s.exceeded b || (List.range (c.nOut * c.m)).any fun idx =>
      over idx && decide (sampleOf c.outT c.m c.nOut idx = b)
    any := s.any || (List.range (c.nOut * c.m)).any over }

/-- End of `applyToOutputWithBoundManagement` (io_manager.cu:875-879). -/
def Ctx.passed (c : Ctx K) (s : St K) : Bool :=
  !s.any || decide ((c.io.maxBmFactor : K) < s.red) ||
    (decide (0 < c.io.inpRes) && decide (c.io.maxBmRes / c.io.inpRes < s.red))

/-- `finalizeOutput` (forward_backward_pass.h:309-325): the outputs, the state, and whether it is done. -/
def Ctx.finalize (c : Ctx K) (u g v out : Arr K) (s : St K) : Arr K × St K × Bool :=
  let v := if c.io.hasNLCal then c.nonLinearity v else v
  let std := if 0 < c.io.outNoiseStd then 0 else c.io.outNoise
  let v := if 0 < c.io.outNoiseStd then c.noiseOtoO g v else v
  if c.io.bm ≠ .none then
    let s' := c.markBM std u g v s
    (c.outputBM std u g v out s, s', c.passed s')
  else (c.applyOutput std (c.nmValues s.man) u g v out, s, true)

/-- The weights of the negative pass (forward_backward_pass.cu:739-744). -/
def Ctx.negW (c : Ctx K) : Arr K :=
  if 0 < c.io.wReadAsym then fun i => c.W i * c.p.wAsym (i % c.dSz) (i / c.dSz) else c.W

/-- `elemmin` with zero, into the buffer of the separated inputs, from the buffer of the inputs
(forward_backward_pass.cu:735-737). The buffer of the inputs is not set back. -/
def Ctx.separateNeg (c : Ctx K) (s : St K) : St K :=
  { s with inPN := true, bufPN := mapTo (c.nIn * c.m) (fun _ v => min v 0) s.inBuf s.bufPN }

/-- `elemmax` with zero (forward_backward_pass.cu:751-752); `old` says where the inputs were. -/
def Ctx.separatePos (c : Ctx K) (old : Bool) (s : St K) : St K :=
  { s with bufPN := mapTo (c.nIn * c.m) (fun _ v => max v 0) (if old then s.bufPN else s.buf) s.bufPN }

/-- `computeAnalogMV` (forward_backward_pass.cu:700-836); `junk` are the contents of the buffers of
outputs. -/
def Ctx.analogMV (c : Ctx K) (sq : K → K) (dr : Draws K) (junk out : Arr K) (s : St K) :
    Except PyErr (Arr K × St K × Bool) :=
  match c.io.mvType with
  | .onePass =>
    .ok (c.finalize (dr.outU true) (dr.outG true) (c.singlePass sq c.W (dr.wG true) s.inBuf junk) out s)
  | .posNeg =>
    let s1 := c.separateNeg s
    let yn := c.singlePass sq c.negW (dr.wG false) s1.inBuf junk
    let s2 := c.separatePos s.inPN s1
    let yp := c.singlePass sq c.W (dr.wG true) s2.inBuf junk
    .ok (c.finalize (dr.outU true) (dr.outG true) (fun i => yn i + yp i) out s2)
  | .posNegDigital =>
    let s1 := c.separateNeg s
    let yn := c.singlePass sq c.negW (dr.wG false) s1.inBuf junk
    let a := c.finalize (dr.outU false) (dr.outG false) yn junk s1
    let s2 := c.separatePos s.inPN a.2.1
    let yp := c.singlePass sq c.W (dr.wG true) s2.inBuf junk
    let b := c.finalize (dr.outU true) (dr.outG true) yp s2.bufPN s2
    .ok (mapTo (c.nOut * c.m) (fun i _ => a.1 i + b.1 i) out out, { b.2.1 with bufPN := b.1 },
      b.2.2 && a.2.2)
  | _ => .error .runtimeError

/-- One round of the loop (forward_backward_pass.h:195-202). -/
def Ctx.round (c : Ctx K) (nth : ℕ) (lowest : K) (sq : K → K) (dr : Draws K) (junk : Arr K) (r : Req K)
    (x out : Arr K) (s : St K) : Except PyErr (Arr K × St K × Bool) :=
  if c.io.bm ≠ .none then
    match c.nextRound nth lowest r s with
    | .error e => .error e
    | .ok s => c.analogMV sq dr junk out (c.inputBM dr x s)
  else c.analogMV sq dr junk out (s.setIn (c.applyInput (c.nmValues s.man) dr.inU dr.inG x s.inBuf))

/-- `while (bound_test_passed == false)` (forward_backward_pass.h:195-202). -/
def Ctx.rounds (c : Ctx K) (nth : ℕ) (lowest : K) (sq : K → K) (dr : ℕ → Draws K) (junk : ℕ → Arr K)
    (r : ℕ → Req K) (x : Arr K) : ℕ → Arr K → St K → Except PyErr (Arr K × St K)
  | 0, _, _ => .error .other
  | f + 1, out, s =>
    match c.round nth lowest sq (dr f) (junk f) (r f) x out s with
    | .error e => .error e
    | .ok z => if z.2.2 then .ok (z.1, z.2.1) else c.rounds nth lowest sq dr junk r x f z.1 z.2.1

/-- `initWithInput` (io_manager.cu:673-713): the buffers are fresh, the values of noise management
computed. -/
def Ctx.start (c : Ctx K) (nth : ℕ) (lowest : K) (r : Req K) (s : St K) : Except PyErr (St K) :=
  match s.man.compute c.nIn nth lowest c.io.nm c.io r with
  | .error e => .error e
  | .ok man => .ok { s with man := man, round := 0, red := 1 / 2, inPN := false }

/-- `forwardMatrixIterator` and `backwardMatrixIterator` for inputs which are not perfect
(forward_backward_pass.h:159-257). -/
def Ctx.pass (c : Ctx K) (nth : ℕ) (lowest : K) (sq : K → K) (dr : ℕ → Draws K) (junk : ℕ → Arr K)
    (r : ℕ → Req K) (fuel : ℕ) (x out : Arr K) (s : St K) : Except PyErr (Arr K × St K) :=
  if c.tr ∧ c.io.bm ≠ .none then .error .runtimeError
  else match c.start nth lowest (r fuel) s with
    | .error e => .error e
    | .ok s => c.rounds nth lowest sq dr junk r x fuel out s

end Aihw.GpuIo
