import Verif.CppFwd.Model
import Mathlib.Logic.Function.Basic
import Mathlib.Data.List.Perm.Basic

/-!
# Noise management on the GPU

Models src/rpucuda/cuda/maximizer.{h,cu} and src/rpucuda/cuda/noise_manager.{h,cu}: the reductions of a
batch of inputs to one value per sample, their buffers from call to call, and the values by which the
inputs are divided.

Simplifications (stated once):
* values are elements of an ordered field (no rounding; the floating-point sum does not depend on the
  order); an array on the device is a function from indices, of which the first `size` count;
* the threads of one kernel may run in any order, up to `__syncthreads`, one atomic operation after the
  other; a kernel ends before the next one starts (one stream);
* the reductions of the CUB library are the reductions of the elements, in order;
* the maxima in shared memory are `float` also for `double` (not modelled);
* `AverageAbsMaxSingleValue` and `AbsMaxSingleValue` cannot be chosen from Python and are left out;
* in `kernelNPSumBatchTrans` a value is added to one of two sums; here it is added to one and zero to the
  other.
-/
open scoped BigOperators

namespace Aihw.GpuNm

open Aihw.CppFwd (NM)

variable {K : Type} [Field K] [LinearOrder K] [IsStrictOrderedRing K] [FloorRing K]

/-! ## Reductions -/

/-- A reduction: how two values are combined, what a buffer is initialized with, and what is taken of an
input. -/
structure Acc (K : Type) where
  op : K → K → K
  e : K
  f : K → K

/-- `CustomMaxAbs` and `kernelMaximizeBatchTrans` with `abs_if` (maximizer.h:13-19, maximizer.cu:94-108). -/
def amaxAcc : Acc K := ⟨max, 0, fun v => if 0 ≤ v then v else -v⟩

/-- `kernelMaximizeBatchTrans` without `abs_if`; `lowest` is the smallest number
(maximizer.cu:94-108, :306-310). -/
def maxAcc (lowest : K) : Acc K := ⟨max, lowest, fun v => v⟩

/-- The sum of the positive values (noise_manager.h:23-29, noise_manager.cu:88-97). -/
def psumAcc : Acc K := ⟨fun a b => a + b, 0, fun v => if 0 ≤ v then v else 0⟩

/-- The sum of the negative values (noise_manager.h:15-21, noise_manager.cu:88-97). -/
def nsumAcc : Acc K := ⟨fun a b => a + b, 0, fun v => if 0 ≤ v then 0 else v⟩

/-- Reducing a list, starting with the initial value. -/
def Acc.total (a : Acc K) (L : List K) : K := L.foldl (fun acc v => a.op v acc) a.e

/-- An atomic operation on element `i` (`atomicMaxFP`, maximizer.cu:24-40; `atomicAdd`). -/
def Acc.atomic (a : Acc K) (mem : ℕ → K) (i : ℕ) (v : K) : ℕ → K := Function.update mem i (a.op v (mem i))

/-- The order in which threads act: those of each block on shared memory, then all on global memory, and
those of the kernel without shared memory. -/
structure Sched where
  block : ℕ → List ℕ
  final : List (ℕ × ℕ)
  flat : List ℕ

/-- The indices of the threads of a block which have an input (`tid < size`). -/
def active (nthreads total k : ℕ) : List ℕ :=
  ((List.range nthreads).map fun t => k * nthreads + t).filter fun tid => decide (tid < total)

/-- `getNBlocks` (cuda_util.h:335-347). -/
def nBlocks (n nthreads : ℕ) : ℕ := (n + nthreads - 1) / nthreads

/-- The threads which write to global memory after `__syncthreads`, as pairs of block and index. -/
def writers (nthreads total m : ℕ) : List (ℕ × ℕ) :=
  (List.range (nBlocks total nthreads)).flatMap fun k =>
    ((List.range nthreads).filter fun t => decide (t < m)).map fun t => (k, t)

/-- The orders which are possible. -/
def Sched.Possible (s : Sched) (nthreads total m : ℕ) : Prop :=
  (∀ k : ℕ, (s.block k).Perm (active nthreads total k)) ∧
  s.final.Perm (writers nthreads total m) ∧
  s.flat.Perm (List.range total)

/-- Shared memory of a block at `__syncthreads` (maximizer.cu:86-105, noise_manager.cu:72-98). -/
def Acc.shared (a : Acc K) (m : ℕ) (input : ℕ → K) (order : List ℕ) : ℕ → K :=
  order.foldl (fun mem tid => a.atomic mem (tid % m) (a.f (input tid))) fun _ => a.e

/-- `kernelMaximizeBatchTrans` and `kernelNPSumBatchTrans`: the values
(maximizer.cu:74-112, noise_manager.cu:52-106). -/
def Acc.kernelShared (a : Acc K) (s : Sched) (m : ℕ) (input : ℕ → K) (val : ℕ → K) : ℕ → K :=
  s.final.foldl (fun mem p => a.atomic mem p.2 (a.shared m input (s.block p.1) p.2)) val

/-- `kernelMaximizeBatchTrans_LargeBatch` and `kernelNPSumBatchTrans_LargeBatch`: the values
(maximizer.cu:114-145, noise_manager.cu:108-141). -/
def Acc.kernelLarge (a : Acc K) (s : Sched) (m : ℕ) (input : ℕ → K) (val : ℕ → K) : ℕ → K :=
  s.flat.foldl (fun mem tid => a.atomic mem (tid % m) (a.f (input tid))) val

/-- The other buffer, initialized for the next call: `if (tid < m_batch) max_values0[tid] = min_value`
(maximizer.cu:89-91, noise_manager.cu:77-80). There are at least `m_batch` threads. -/
def Acc.clear (a : Acc K) (m : ℕ) (zero : ℕ → K) : ℕ → K := fun i => if i < m then a.e else zero i

/-- The two buffers and their size. -/
structure Buf (K : Type) where
  val : ℕ → K
  zero : ℕ → K
  cap : ℕ

/-- One call: batch size, layout, inputs, the order of the threads, and the contents of fresh memory. -/
structure Call (K : Type) where
  m : ℕ
  trans : Bool
  input : ℕ → K
  sched : Sched
  junk : ℕ → K

/-- `initializeBatchBuffer` (maximizer.cu:331-338, noise_manager.cu:189-203). -/
def Acc.grow (a : Acc K) (b : Buf K) (m : ℕ) (junk : ℕ → K) : Buf K :=
  if b.cap < m then ⟨junk, fun _ => a.e, m⟩ else b

/-- A reduction by CUB of the elements `start, …, start + n - 1`. -/
def Acc.reduce (a : Acc K) (n start : ℕ) (input : ℕ → K) : K :=
  a.total ((List.range n).map fun j => a.f (input (start + j)))

/-- The branch for batches with the batch dimension first (maximizer.cu:401-421,
noise_manager.cu:276-299). -/
def Acc.batchTrans (a : Acc K) (n nthreads : ℕ) (b : Buf K) (c : Call K) : Buf K :=
  let val := b.zero
  let zero := b.val
  { b with
    val := if c.m ≤ nthreads then a.kernelShared c.sched c.m c.input val
      else a.kernelLarge c.sched c.m c.input val
    zero := a.clear c.m zero }

/-- The branch for batches with the batch dimension last (maximizer.cu:423-435,
noise_manager.cu:301-311). -/
def Acc.batchPlain (a : Acc K) (n : ℕ) (b : Buf K) (c : Call K) : Buf K :=
  { b with val := fun i => if i < c.m then a.reduce n (i * n) c.input else b.val i }

/-- `Maximizer::compute` and `computeNPSum` (maximizer.cu:374-436, noise_manager.cu:255-313); `n` is the
number of inputs of a sample. -/
def Acc.compute (a : Acc K) (n nthreads : ℕ) (b : Buf K) (c : Call K) : Buf K :=
  if c.m = 1 then { b with val := Function.update b.val 0 (a.reduce n 0 c.input) }
  else if c.trans then a.batchTrans n nthreads (a.grow b c.m c.junk) c
  else a.batchPlain n (a.grow b c.m c.junk) c

/-- The buffers after a history of calls, from construction (maximizer.cu:313-329,
noise_manager.cu:166-187). -/
def Acc.run (a : Acc K) (n nthreads : ℕ) (junk : ℕ → K) : List (Call K) → Buf K
  | [] => ⟨junk, junk, 0⟩
  | c :: earlier => a.compute n nthreads (a.run n nthreads junk earlier) c

/-- `saturateAbove` (maximizer.cu:369-371): the whole buffer. -/
def saturate (thres : K) (b : Buf K) : Buf K := { b with val := fun i => min (b.val i) thres }

/-! ## The noise manager -/

/-- The members of `NoiseManager` (noise_manager.h:67-100). -/
structure Man (K : Type) where
  amax : Buf K
  max : Buf K
  psum : Buf K
  nsum : Buf K
  scales : ℕ → K
  size : ℕ
  ravg : K
  ravgInit : Bool
  constSet : Bool
  type : NM

/-- One call of `compute`: the batch as in `Call`, one order of the threads for each reduction, whether
thread `i` of `kernelAverageAbsMaxSetScales` reads the running average after it was written, and whether
it is evaluation. -/
structure Req (K : Type) where
  m : ℕ
  trans : Bool
  input : ℕ → K
  amaxSched : Sched
  maxSched : Sched
  psumSched : Sched
  nsumSched : Sched
  junk : ℕ → K
  late : ℕ → Bool
  test : Bool

/-- The call of a reduction. -/
def Req.call (r : Req K) (s : Sched) : Call K := ⟨r.m, r.trans, r.input, s, r.junk⟩

/-- `if (io.nm_thres > 0) saturateAbove(io.nm_thres)` (noise_manager.cu:370-372, :379-381, :391-393). -/
def capped (io : CppFwd.IO K) (b : Buf K) : Buf K := if 0 < io.nmThres then saturate io.nmThres b else b

/-- New scale values if there are too few of them; their contents are arbitrary. -/
def Man.ensure (w : Man K) (r : Req K) : Man K :=
  if w.size < r.m then { w with scales := r.junk, size := r.m } else w

/-- `kernelAbsMaxNPSum` (noise_manager.cu:30-50) and its arguments (noise_manager.cu:402-408). -/
def npSumValue (io : CppFwd.IO K) (amax psum nsum : K) : K :=
  let s := Max.max psum (-nsum)
  let bmMax := if 0 < io.inpRes then io.maxBmRes / io.inpRes else 1
  Max.max amax (min (s * io.nmWmax / io.outBound.getD 1) (amax * bmMax))

/-- Case `AbsMaxNPSum` (noise_manager.cu:384-410). -/
def Man.npSum (n nthreads : ℕ) (w : Man K) (io : CppFwd.IO K) (r : Req K) : Man K :=
  let w := w.ensure r
  let amax := capped io (amaxAcc.compute n nthreads w.amax (r.call r.amaxSched))
  let psum := psumAcc.compute n nthreads w.psum (r.call r.psumSched)
  let nsum := nsumAcc.compute n nthreads w.nsum (r.call r.nsumSched)
  { w with
    amax := amax
    psum := psum
    nsum := nsum
    scales := fun i => if i < r.m then npSumValue io (amax.val i) (psum.val i) (nsum.val i)
      else w.scales i }

/-- `CudaArray` of scale values for the running average (noise_manager.cu:419-434): all of them the
running average. -/
def Man.ensureAvg (w : Man K) (r : Req K) : Man K :=
  if w.size < r.m then { w with scales := fun _ => w.ravg, size := r.m } else w

/-- The sum of the maxima (noise_manager.cu:446-466, :471-472). -/
def sumMax (m : ℕ) (amax : ℕ → K) : K := if 1 < m then ∑ b ∈ Finset.range m, amax b else amax 0

/-- The new running average (noise_manager.cu:148-156); it is given the size of the array of scale values
as the batch size (noise_manager.cu:469-474). -/
def average (size : ℕ) (ravg decay sum : K) : K := ravg * (1 - decay) + decay * (sum / (size : K))

/-- The number of threads of `kernelAverageAbsMaxSetScales` (noise_manager.cu:469-470). -/
def avgThreads (m nthreads : ℕ) : ℕ := nBlocks (m + 1) nthreads * nthreads

/-- `kernelAverageAbsMaxSetScales` (noise_manager.cu:143-159, :467-474). -/
def Man.setAverage (nthreads : ℕ) (w : Man K) (decay sum : K) (r : Req K) : Man K :=
  let new := average w.size w.ravg decay sum
  { w with
    scales := fun i => if i < w.size ∧ i < avgThreads r.m nthreads then
        (if r.late i ∧ w.size < avgThreads r.m nthreads then average w.size new decay sum else new)
      else w.scales i
    ravg := if w.size < avgThreads r.m nthreads then new else w.ravg
    ravgInit := true }

/-- Case `AverageAbsMax` (noise_manager.cu:412-495). -/
def Man.averageAbsMax (n nthreads : ℕ) (w : Man K) (io : CppFwd.IO K) (r : Req K) : Man K :=
  let w := w.ensureAvg r
  if r.test then w else
    let amax := amaxAcc.compute n nthreads w.amax (r.call r.amaxSched)
    let w' := { w with amax := amax }
    w'.setAverage nthreads (if w.ravgInit then min io.nmDecay 1 else 1) (sumMax r.m amax.val) r

/-- New constant scale values if there are too few (noise_manager.cu:355-359). -/
def Man.ensureConst (w : Man K) (r : Req K) : Man K :=
  if w.size < r.m then { w with scales := r.junk, size := r.m, constSet := false } else w

/-- Case `Constant` (noise_manager.cu:354-365). -/
def Man.constant (w : Man K) (io : CppFwd.IO K) (r : Req K) : Man K :=
  let w := w.ensureConst r
  if w.constSet then w
  else { w with scales := fun _ => if 0 < io.nmThres then io.nmThres else 1, constSet := true }

/-- `NoiseManager::compute` (noise_manager.cu:339-562); the kinds that cannot be chosen raise. -/
def Man.compute (n nthreads : ℕ) (lowest : K) (w : Man K) (type : NM) (io : CppFwd.IO K) (r : Req K) :
    Except PyErr (Man K) :=
  let w := { w with type := type }
  match type with
  | .none => .ok w
  | .constant => .ok (w.constant io r)
  | .max => .ok { w with max := capped io ((maxAcc lowest).compute n nthreads w.max (r.call r.maxSched)) }
  | .absMax => .ok { w with amax := capped io (amaxAcc.compute n nthreads w.amax (r.call r.amaxSched)) }
  | .absMaxNPSum => .ok (w.npSum n nthreads io r)
  | .average => .ok (w.averageAbsMax n nthreads io r)
  | .averageSingle | .absMaxSingle => .error .runtimeError

/-- `NoiseManager::getScaleValues` (noise_manager.cu:564-588); `none` is the null pointer. -/
def Man.values (w : Man K) : Option (ℕ → K) :=
  match w.type with
  | .absMaxNPSum | .constant | .average => some w.scales
  | .absMax => some w.amax.val
  | .max => some w.max.val
  | _ => none

/-- A new noise manager (noise_manager.cu:166-187). -/
def Man.new (junk : ℕ → K) : Man K :=
  ⟨⟨junk, junk, 0⟩, ⟨junk, junk, 0⟩, ⟨junk, junk, 0⟩, ⟨junk, junk, 0⟩, junk, 1, 1, false, false, .none⟩

end Aihw.GpuNm
