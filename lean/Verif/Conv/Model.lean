import Verif.Common

/-!
# Analog convolutions

Models `_AnalogConvNd`, `AnalogConv1d/2d/3d` (src/aihwkit/nn/modules/conv.py), the indexed interface of
the tiles (src/aihwkit/simulator/tiles/periphery.py:1270-1394) and the indexed routines of the C++
simulator (src/rpucuda/rpu.cpp:846-1000, 1116-1142, 1171-1198, 1221-1240,
src/rpucuda/math_util.cpp:319-348).

Simplifications.  Tensors are flat row-major lists.  The tile is an arbitrary function per column (the
column number stands for its random draws).  The input has as many image dimensions as the layer.
Out-of-bounds accesses of the C++ code (undefined behaviour) are the error `other`.
The scales and noise of the tile (`pre_forward`, `post_forward`) are part of the tile.
-/
namespace Aihw.Conv

/-- One image dimension of a layer: kernel, stride, padding, dilation (conv.py:66-80). -/
structure KDim where
  k : Nat
  s : Nat
  p : Nat
  d : Nat

/-- One image dimension with the size of the input. -/
structure Dim where
  n : Nat
  kd : KDim

/-- Number of elements of the kernel window in this dimension. -/
def Dim.span (D : Dim) : Nat := D.kd.d * (D.kd.k - 1) + 1

/-- Output size (`get_image_size`, conv.py:110-114; also the number of windows of `unfold`). -/
def Dim.out (D : Dim) : Nat := (D.n + 2 * D.kd.p - D.span) / D.kd.s + 1

/-- The checks of `torch.nn.functional.unfold` and `Tensor.unfold`. -/
def Dim.valid (D : Dim) : Bool :=
  decide (0 < D.kd.k) && decide (0 < D.kd.s) && decide (0 < D.kd.d) && decide (D.span ≤ D.n + 2 * D.kd.p)

/-- Number of input pixels. -/
def pixels (ds : List Dim) : Nat := (ds.map (·.n)).prod

/-- Number of kernel elements. -/
def kernels (ds : List Dim) : Nat := (ds.map (·.kd.k)).prod

/-- Number of output pixels. -/
def outs (ds : List Dim) : Nat := (ds.map Dim.out).prod

/-- Flat pixel that kernel element `a` of window `w` covers, `none` in the padding: the net effect of
`pad` with zeros, `unfold` in every dimension, and `reshape` of the windows and kernels to one dimension
each (conv.py:358-366, 758-786; `F.unfold` conv.py:557-569). -/
def src : List Dim → Nat → Nat → Option Nat
  | [], _, _ => some 0
  | D :: ds, a, w =>
    let u := w / outs ds * D.kd.s + a / kernels ds * D.kd.d
    if D.kd.p ≤ u ∧ u < D.kd.p + D.n then
      (src ds (a % kernels ds) (w % outs ds)).map fun r => (u - D.kd.p) * pixels ds + r
    else none

/-- Index of kernel element `a`, window `w` in channel zero: 0 is padding, 2 the first pixel
(`arange(2, ...)`). -/
def idx0 (ds : List Dim) (a w : Nat) : Nat :=
  match src ds a w with
  | none => 0
  | some f => 2 + f

/-- `[kernels, windows]` flattened (conv.py:366, 781-786). -/
def base (ds : List Dim) : List Nat :=
  (List.range (kernels ds)).flatMap fun a => (List.range (outs ds)).map fun w => idx0 ds a w

/-- The input: batch, channels, image sizes, data. -/
structure Img where
  N : Nat
  C : Nat
  sizes : List Nat
  data : List ℚ

/-- The layer: channels, image dimensions, analog bias, and whether it is an `AnalogConv2d`. -/
structure Layer where
  C : Nat
  O : Nat
  ks : List KDim
  abias : Bool
  two : Bool

/-- The dimensions of an input of the layer. -/
def Layer.dims (l : Layer) (sizes : List Nat) : List Dim := List.zipWith Dim.mk sizes l.ks

/-- Fold indices of one or three image dimensions for `c` channels, the input having `cIn` channels:
channel `i` is shifted by `input_size / in_channels * i`, padding excepted (conv.py:369-379, 788-798);
the conversion to `int32` truncates. -/
def chanShift (ds : List Dim) (c cIn : Nat) : List Nat :=
  (List.range c).flatMap fun i => (base ds).map fun v => if v = 0 then 0 else v + cIn * pixels ds * i / c

/-- Fold indices of two image dimensions: `F.unfold` of all channels of the input (conv.py:553-569). -/
def chanUnfold (ds : List Dim) (cIn : Nat) : List Nat :=
  (List.range cIn).flatMap fun c => (base ds).map fun v => if v = 0 then 0 else v + c * pixels ds

/-- `_calculate_indexes` (conv.py:336-386, 533-580, 728-809): with an analog bias, ones are appended. -/
def Layer.indexes (l : Layer) (x : Img) : Except PyErr (List Nat) :=
  let ds := l.dims x.sizes
  if ds.all Dim.valid then
    let f := if l.two then chanUnfold ds x.C else chanShift ds l.C x.C
    .ok (if l.abias then f ++ List.replicate (f.length / kernels ds) 1 else f)
  else .error .runtimeError

/-- Rows of the analog weight matrix (conv.py:74, tile size plus a bias row). -/
def Layer.xs (l : Layer) : Nat := l.C * (l.ks.map (·.k)).prod + (if l.abias then 1 else 0)

/-- Position in the index tensor and batch number (`i`, rpu.cpp:897, `trans`, no slice). -/
def pos (xs m N e : Nat) : Nat := e % (m * N) / m * (m * xs) + e % m + e / (m * N) * m

/-- Element `e` of the input buffer (`copyIndexedInput`, rpu.cpp:891-904). -/
def cellIn (ind : List Nat) (x : List ℚ) (xs m N total e : Nat) : Option ℚ :=
  match ind[pos xs m N e % (m * xs)]? with
  | none => none
  | some j => if j ≤ 1 then some (j : ℚ) else x[(j - 2) + pos xs m N e / (m * xs) * (total / N)]?

/-- The input buffer. -/
def bufIn (ind : List Nat) (x : List ℚ) (xs m N total : Nat) : Option (List ℚ) :=
  (List.range (xs * m * N)).mapM (cellIn ind x xs m N total)

/-- Column `j` of a `[rows, cols]` buffer. -/
def column (b : Nat → ℚ) (rows cols j : Nat) : List ℚ := (List.range rows).map fun i => b (i * cols + j)

/-- `permute132` without bias (math_util.cpp:319-340): input `[d3, d2, d1]`, output `[d2, d3, d1]`. -/
def permute132 (b : Nat → ℚ) (d1 d2 d3 e : Nat) : ℚ :=
  b ((e / d1 % d3 * d2 + e / (d1 * d3)) * d1 + e % d1)

/-- A matrix product of the tile with all columns, transposed layout (`forwardMatrix`,
`backwardMatrix`): entry `[i, j]` of `[rows, cols]`. -/
def matrix (mv : Nat → List ℚ → Nat → ℚ) (b : Nat → ℚ) (rowsIn cols e : Nat) : ℚ :=
  mv (e % cols) (column b rowsIn cols (e % cols)) (e / cols)

/-- `forwardIndexed` (rpu.cpp:1116-1142); the result is `[N, O, m]`. -/
def forwardIndexed (mv : Nat → List ℚ → Nat → ℚ) (ind : List Nat) (x : List ℚ) (xs O m N : Nat) :
    Except PyErr (List ℚ) :=
  match bufIn ind x xs m N x.length with
  | none => .error .other
  | some b =>
    let dt := matrix mv (fun e => b.getD e 0) xs (m * N)
    .ok ((List.range (N * O * m)).map fun e => if 1 < N then permute132 dt m N O e else dt e)

/-- State of the layer: nothing, or the remembered input size, the fold indices and the output image
size given to the tile (conv.py:93-96, 130-134; periphery.py:1293-1295). -/
structure LSt where
  idx : Option (Nat × List Nat × List Nat)

/-- `_recalculate_indexes` if the number of input elements per sample changed (conv.py:166-169). -/
def Layer.refresh (l : Layer) (st : LSt) (x : Img) : Except PyErr (Nat × List Nat × List Nat) :=
  match st.idx with
  | none => (l.indexes x).map fun i => (x.data.length / x.N, i, (l.dims x.sizes).map Dim.out)
  | some r => if r.1 = x.data.length / x.N then .ok r
      else (l.indexes x).map fun i => (x.data.length / x.N, i, (l.dims x.sizes).map Dim.out)

/-- Indexed `forward` (conv.py:166-170, periphery.py:1318-1340): new state, output sizes and data. -/
def Layer.forwardI (l : Layer) (mv : Nat → List ℚ → Nat → ℚ) (st : LSt) (x : Img) :
    LSt × Except PyErr (List Nat × List ℚ) :=
  if x.N = 0 then (st, .error .zeroDivision)
  else match l.refresh st x with
    | .error e => (st, .error e)
    | .ok r => (⟨some r⟩,
        (forwardIndexed mv r.2.1 x.data l.xs l.O r.2.2.prod x.N).map fun y => (x.N :: l.O :: r.2.2, y))

/-- Element `e` of the unfolded and transposed input `[N, L, C * K]` (conv.py:173-180). -/
def unfolded (ds : List Dim) (x : Img) (e : Nat) : ℚ :=
  let ck := x.C * kernels ds
  let n := e / (outs ds * ck)
  let w := e / ck % outs ds
  let c := e % ck / kernels ds
  match src ds (e % ck % kernels ds) w with
  | none => 0
  | some f => x.data.getD ((n * x.C + c) * pixels ds + f) 0

/-- Brute-force `forward` of `AnalogConv2d` (conv.py:172-188): the tile gets the rows of the unfolded
input; with an analog bias it appends a one to every row (base.py).  A wrong number of channels is
rejected by the tile. -/
def Layer.forwardU (l : Layer) (mv : Nat → List ℚ → Nat → ℚ) (x : Img) : Except PyErr (List Nat × List ℚ) :=
  let ds := l.dims x.sizes
  if ds.all Dim.valid then
    if x.C = l.C then
      let ck := x.C * kernels ds
      let row : Nat → List ℚ := fun j =>
        (List.range ck).map (fun i => unfolded ds x (j * ck + i)) ++ (if l.abias then [1] else [])
      .ok (x.N :: l.O :: ds.map Dim.out,
        (List.range (x.N * l.O * outs ds)).map fun e =>
          mv (e / (l.O * outs ds) * outs ds + e % outs ds) (row (e / (l.O * outs ds) * outs ds + e % outs ds))
            (e / outs ds % l.O))
    else .error .runtimeError
  else .error .runtimeError

/-- One step of the loop of `copyIndexedOutput` (rpu.cpp:986-994); `none` if out of bounds. -/
def cellOut (ind : List Nat) (b : Nat → ℚ) (xs m N total : Nat) (acc : Nat → ℚ) (e : Nat) : Option (Nat → ℚ) :=
  match ind[pos xs m N e % (m * xs)]? with
  | none => none
  | some j =>
    if 1 < j then
      if (j - 2) + pos xs m N e / (m * xs) * (total / N) < total then
        some fun q => if q = (j - 2) + pos xs m N e / (m * xs) * (total / N) then acc q + b e else acc q
      else none
    else some acc

/-- `backwardIndexed` (rpu.cpp:1171-1198): gradient of the input, `total` its number of elements. -/
def backwardIndexed (mvT : Nat → List ℚ → Nat → ℚ) (ind : List Nat) (d : List ℚ) (xs O m N total : Nat) :
    Except PyErr (List ℚ) :=
  let dt : Nat → ℚ := if N = 1 then fun e => d.getD e 0 else permute132 (fun e => d.getD e 0) m O N
  let xt := matrix mvT dt O (m * N)
  match (List.range (xs * m * N)).foldlM (cellOut ind xt xs m N total) (fun _ => 0) with
  | none => .error .other
  | some acc => .ok ((List.range total).map acc)

/-- `updateIndexed` (rpu.cpp:1221-1240): the pairs of input and error vectors given to the update of the
tile, one per column. -/
def updateIndexed (ind : List Nat) (x d : List ℚ) (xs O m N : Nat) : Except PyErr (List (List ℚ × List ℚ)) :=
  match bufIn ind x xs m N x.length with
  | none => .error .other
  | some b => .ok ((List.range (m * N)).map fun j =>
      (column (fun e => b.getD e 0) xs (m * N) j,
        column (permute132 (fun e => d.getD e 0) m O N) O (m * N) j))

/-- `backward_indexed` (periphery.py:1359-1379; binding rpu_base_tiles.cpp:659-679): the size of the
result comes from the image sizes given with the indices, the number of windows from the errors. -/
def Layer.backwardI (l : Layer) (mvT : Nat → List ℚ → Nat → ℚ) (st : LSt) (N : Nat) (d : List ℚ) :
    Except PyErr (List ℚ) :=
  match st.idx with
  | none => .error .tileError
  | some r => backwardIndexed mvT r.2.1 d l.xs l.O (d.length / N / l.O) N (N * r.1)

/-- `update_indexed` (periphery.py:1381-1394; binding rpu_base_tiles.cpp:693-712), called by the optimizer
step with the inputs and errors stored during the backward pass (functions.py:104-112): it uses the
indices that are in the tile at that time.  Without indices the C++ code stops (rpu.h:457-462). -/
def Layer.updateI (l : Layer) (st : LSt) (N : Nat) (x d : List ℚ) : Except PyErr (List (List ℚ × List ℚ)) :=
  match st.idx with
  | none => .error .runtimeError
  | some r => updateIndexed r.2.1 x d l.xs l.O (d.length / (N * l.O)) N

end Aihw.Conv
