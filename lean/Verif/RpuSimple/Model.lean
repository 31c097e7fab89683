import Verif.Common
import Mathlib.Algebra.BigOperators.Ring.Finset
import Mathlib.Algebra.BigOperators.Group.Finset.Basic
import Mathlib.Algebra.BigOperators.Intervals
import Mathlib.Algebra.Field.Basic

/-!
# The floating-point tile of the C++ library
(src/rpucuda/rpu.cpp, src/rpucuda/math_util.cpp; bindings src/aihwkit/simulator/rpu_base_src/rpu_base_tiles.cpp)

* A block of memory is a function from positions to numbers of a field.  Numbers are exact.
* Delayed updates are left out: `use_delayed_update` is not part of the Python bindings.
* `gemm`, `gemv` and `ger` are the row-major BLAS routines; with `beta = 0` the old content is not read.
-/
namespace Aihw.RpuSimple
open Aihw Finset

variable {K : Type} [Field K]

/-- A block of memory. -/
abbrev Mem (K : Type) := ℕ → K

/-- `cblas_gemm(CblasRowMajor, ta, tb, M, N, L, alpha, A, lda, B, ldb, beta, C, ldc)`. -/
def gemm (ta tb : Bool) (M N L : ℕ) (alpha : K) (A : Mem K) (lda : ℕ) (B : Mem K) (ldb : ℕ) (beta : K) (C : Mem K)
    (ldc : ℕ) : Mem K := fun p =>
  if p / ldc < M ∧ p % ldc < N then
    alpha * (∑ k ∈ range L, A (if ta then k * lda + p / ldc else p / ldc * lda + k) *
      B (if tb then p % ldc * ldb + k else k * ldb + p % ldc)) + beta * C p
  else C p

/-- `cblas_gemv(CblasRowMajor, tr, M, N, alpha, A, lda, x, 1, beta, y, 1)`. -/
def gemv (tr : Bool) (M N : ℕ) (alpha : K) (A : Mem K) (lda : ℕ) (x : Mem K) (beta : K) (y : Mem K) : Mem K := fun p =>
  if p < (if tr then N else M) then
    alpha * (∑ k ∈ range (if tr then M else N), A (if tr then k * lda + p else p * lda + k) * x k) + beta * y p
  else y p

/-- `cblas_ger(CblasRowMajor, M, N, alpha, x, 1, y, 1, A, lda)`. -/
def ger (M N : ℕ) (alpha : K) (x y : Mem K) (A : Mem K) (lda : ℕ) : Mem K := fun p =>
  if p / lda < M ∧ p % lda < N then A p + alpha * x (p / lda) * y (p % lda) else A p

/-- `memcpy(dst + doff, src + soff, n)`. -/
def memcpy (dst : Mem K) (doff : ℕ) (src : Mem K) (soff n : ℕ) : Mem K := fun p =>
  if doff ≤ p ∧ p < doff + n then src (soff + (p - doff)) else dst p

/-- `a[i] = v`. -/
def put (a : Mem K) (i : ℕ) (v : K) : Mem K := fun p => if p = i then v else a p

/-- `makeBias` (math_util.cpp:361-382). -/
def makeBias (buf : Mem K) (X : Mem K) (size m : ℕ) (trans : Bool) : Mem K :=
  if trans then
    let sz := m * (size - 1)
    (List.range m).foldl (fun b i => put b (sz + i) 1) (memcpy buf 0 X 0 sz)
  else
    (List.range m).foldl (fun b j => put (memcpy b (j * size) X (j * (size - 1)) (size - 1)) (j * size + (size - 1)) 1) buf

/-- `copyWithoutBias` (math_util.cpp:394-412). -/
def copyWithoutBias (X : Mem K) (buf : Mem K) (size m : ℕ) (trans : Bool) : Mem K :=
  if trans then memcpy X 0 buf 0 (m * (size - 1))
  else (List.range m).foldl (fun x j => memcpy x (j * (size - 1)) buf (j * size) (size - 1)) X

/-- `RPUSimple`: sizes, weights, modified weights for the passes, scales, learning rate, and the memory for the weight
gradient if one is set (rpu.h:560-700). -/
structure Rpu (K : Type) where
  xSz : ℕ
  dSz : ℕ
  w : Mem K
  fb : Option (Mem K)
  fbTest : Bool
  fAlpha : K
  bAlpha : K
  lr : K
  dw : Option (Mem K)

/-- `getFBWeights` (rpu.cpp:1483-1487). -/
def fbWeights (t : Rpu K) (isTest : Bool) : Mem K :=
  match t.fb with
  | some f => if !isTest || t.fbTest then f else t.w
  | none => t.w

/-- `getAlphaLearningRate` (rpu.cpp:1400-1403). -/
def alphaLR (t : Rpu K) : K := if t.dw.isSome then -1 / t.bAlpha else t.lr / t.bAlpha

/-- `getUpBeta` (rpu.cpp:1509-1511). -/
def upBeta (t : Rpu K) : K := if t.dw.isNone then 1 else 0

/-- `getUpWeights` (rpu.cpp:1489-1507). -/
def upWeights (t : Rpu K) : Mem K :=
  match t.dw with
  | some d => d
  | none => t.w

/-- A write through `getUpWeights`. -/
def setUp (t : Rpu K) (m : Mem K) : Rpu K :=
  match t.dw with
  | some _ => { t with dw := some m }
  | none => { t with w := m }

/-- `forwardMatrix` (rpu.cpp:580-602). -/
def forwardMatrix (t : Rpu K) (X D : Mem K) (m : ℕ) (xT dT isTest : Bool) : Mem K :=
  if dT then
    gemm false (!xT) t.dSz m t.xSz t.fAlpha (fbWeights t isTest) t.xSz X (if xT then m else t.xSz) 0 D m
  else
    gemm xT true m t.dSz t.xSz t.fAlpha X (if xT then m else t.xSz) (fbWeights t isTest) t.xSz 0 D t.dSz

/-- `backwardMatrix` (rpu.cpp:604-622). -/
def backwardMatrix (t : Rpu K) (D X : Mem K) (m : ℕ) (dT xT : Bool) : Mem K :=
  if xT then
    gemm true (!dT) t.xSz m t.dSz t.bAlpha (fbWeights t false) t.xSz D (if dT then m else t.dSz) 0 X m
  else
    gemm dT false m t.xSz t.dSz t.bAlpha D (if dT then m else t.dSz) (fbWeights t false) t.xSz 0 X t.xSz

/-- `updateMatrix` (rpu.cpp:624-634). -/
def updateMatrix (t : Rpu K) (X D : Mem K) (m : ℕ) (xT dT : Bool) : Rpu K :=
  setUp t (gemm (!dT) xT t.dSz t.xSz m (-alphaLR t) D (if dT then m else t.dSz) X (if xT then m else t.xSz) (upBeta t)
    (upWeights t) t.xSz)

/-- `forwardVector` (rpu.cpp:690-696). -/
def forwardVector (t : Rpu K) (x d : Mem K) (isTest : Bool) : Mem K :=
  gemv false t.dSz t.xSz t.fAlpha (fbWeights t isTest) t.xSz x 0 d

/-- `backwardVector` (rpu.cpp:698-703). -/
def backwardVector (t : Rpu K) (d x : Mem K) : Mem K :=
  gemv true t.dSz t.xSz t.bAlpha (fbWeights t false) t.xSz d 0 x

/-- `updateVector` (rpu.cpp:705-720), with increments 1. -/
def updateVector (t : Rpu K) (x d : Mem K) : Rpu K :=
  if t.dw.isNone then setUp t (ger t.dSz t.xSz (-alphaLR t) d x (upWeights t) t.xSz)
  else updateMatrix t x d 1 false false

/-- `copyToVectorBiasBuffer` (rpu.cpp:728-733); `buf` is the old content. -/
def toVectorBias (t : Rpu K) (buf x : Mem K) : Mem K := put (memcpy buf 0 x 0 (t.xSz - 1)) (t.xSz - 1) 1

/-- `forward` (rpu.cpp:508-533, 636-648, 735-740).  `buf` is the old content of the buffer with the bias. -/
def forward (t : Rpu K) (buf X D : Mem K) (bias : Bool) (m : ℕ) (xT dT isTest : Bool) : Mem K :=
  if m = 1 ∧ !xT ∧ !dT then
    if bias then forwardVector t (toVectorBias t buf X) D isTest else forwardVector t X D isTest
  else
    if bias then forwardMatrix t (makeBias buf X t.xSz m xT) D m xT dT isTest else forwardMatrix t X D m xT dT isTest

/-- `backward` (rpu.cpp:535-554, 650-658, 742-747). -/
def backward (t : Rpu K) (buf D X : Mem K) (bias : Bool) (m : ℕ) (dT xT : Bool) : Mem K :=
  if m = 1 ∧ !xT ∧ !dT then
    if bias then memcpy X 0 (backwardVector t D buf) 0 (t.xSz - 1) else backwardVector t D X
  else
    if bias then copyWithoutBias X (backwardMatrix t D buf m dT xT) t.xSz m xT else backwardMatrix t D X m dT xT

/-- `update` (rpu.cpp:556-575, 660-667, 749-754). -/
def update (t : Rpu K) (buf X D : Mem K) (bias : Bool) (m : ℕ) (xT dT : Bool) : Rpu K :=
  if m = 1 ∧ !xT ∧ !dT then
    if bias then updateVector t (toVectorBias t buf X) D else updateVector t X D
  else
    if bias then updateMatrix t (makeBias buf X t.xSz m xT) D m xT dT else updateMatrix t X D m xT dT

/-! ## Bindings -/

/-- `numel()`. -/
def numel (dims : List ℕ) : ℕ := dims.prod

/-- `x_trans ? x.size(0) : x.size(-1)`. -/
def inSize (dims : List ℕ) (tr : Bool) : ℕ := if tr then dims.headD 0 else dims.getLastD 0

/-- The dimensions of the result: `dims[0] = n` or `dims[dims.size() - 1] = n`. -/
def outDims (dims : List ℕ) (tr : Bool) (n : ℕ) : List ℕ := if tr then dims.set 0 n else dims.set (dims.length - 1) n

/-- The number of elements of a vector of the layer. -/
def vecSize (n : ℕ) (bias : Bool) : ℤ := (n : ℤ) - if bias then 1 else 0

/-- The checks of the dimensions before a pass (rpu_base_tiles.cpp:412-427, 482-497): the batch size.  The division by
zero ends the process; it is written as an error here. -/
def batchOf (dims : List ℕ) (tr : Bool) (expected : ℤ) : Except PyErr ℕ :=
  if dims.length < 1 then .error .runtimeError
  else if inSize dims tr = 0 then .error .zeroDivision
  else if (inSize dims tr : ℤ) ≠ expected then .error .runtimeError
  else .ok (numel dims / inSize dims tr)

/-- `tile.forward(x_input, bias, x_trans, d_trans, is_test)` (rpu_base_tiles.cpp:407-445): dimensions of the result and
the memory it is written to; `D` is the content of `torch::empty`. -/
def tileForward (t : Rpu K) (buf : Mem K) (dims : List ℕ) (X D : Mem K) (bias xT dT isTest : Bool) :
    Except PyErr (List ℕ × Mem K) :=
  match batchOf dims xT (vecSize t.xSz bias) with
  | .error e => .error e
  | .ok m => .ok (outDims dims dT t.dSz, forward t buf X D bias m xT dT isTest)

/-- `tile.backward(d_input, bias, d_trans, x_trans)` (rpu_base_tiles.cpp:477-515). -/
def tileBackward (t : Rpu K) (buf : Mem K) (dims : List ℕ) (D X : Mem K) (bias dT xT : Bool) :
    Except PyErr (List ℕ × Mem K) :=
  match batchOf dims dT (t.dSz : ℤ) with
  | .error e => .error e
  | .ok m => .ok (outDims dims xT (t.xSz - if bias then 1 else 0), backward t buf D X bias m dT xT)

/-- The checks of `update` (rpu_base_tiles.cpp:557-588): both batch sizes are computed before any size is checked. -/
def updateBatch (xd dd : List ℕ) (xT dT : Bool) (xe de : ℤ) : Except PyErr ℕ :=
  if xd.length < 1 ∨ dd.length < 1 then .error .runtimeError
  else if inSize xd xT = 0 ∨ inSize dd dT = 0 then .error .zeroDivision
  else if (inSize xd xT : ℤ) ≠ xe then .error .runtimeError
  else if (inSize dd dT : ℤ) ≠ de then .error .runtimeError
  else if numel xd / inSize xd xT ≠ numel dd / inSize dd dT then .error .runtimeError
  else .ok (numel xd / inSize xd xT)

/-- `tile.update` with its arguments by position (rpu_base_tiles.cpp:543-596): nothing happens with learning rate 0. -/
def tileUpdate [DecidableEq K] (t : Rpu K) (buf : Mem K) (xd dd : List ℕ) (X D : Mem K) (bias xT dT : Bool) :
    Except PyErr (Rpu K) :=
  if t.lr = 0 then .ok t
  else match updateBatch xd dd xT dT (vecSize t.xSz bias) t.dSz with
    | .error e => .error e
    | .ok m => .ok (update t buf X D bias m xT dT)

/-- `tile.update(x, d, bias, x_trans=…, d_trans=…)` with keywords: the names are declared in the order `bias, d_trans,
x_trans` (rpu_base_tiles.cpp:597-598), the function takes `bias, x_trans, d_trans` (:543-545). -/
def tileUpdateKw [DecidableEq K] (t : Rpu K) (buf : Mem K) (xd dd : List ℕ) (X D : Mem K) (bias x_trans d_trans : Bool) :
    Except PyErr (Rpu K) := tileUpdate t buf xd dd X D bias d_trans x_trans

/-- `set_delta_weights` and `reset_delta_weights` (rpu.cpp:1459-1481). -/
def setDelta (t : Rpu K) (dw : Option (Mem K)) : Rpu K := { t with dw := dw }

end Aihw.RpuSimple
