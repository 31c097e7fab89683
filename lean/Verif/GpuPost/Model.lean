import Verif.PostUpdate.Clip
import Verif.PostUpdate.Model
import Verif.GpuIo.Model

/-!
# Clipping and remapping of the weights on the GPU (C32, C12)

src/rpucuda/cuda/weight_clipper_cuda.cu, src/rpucuda/cuda/weight_remapper_cuda.cu and how the tiles call them
(src/rpucuda/cuda/rpucuda.cu:733-748, 841-854; src/rpucuda/cuda/rpucuda_pulsed.cu:270-305; bindings
src/aihwkit/simulator/rpu_base_src/rpu_base_tiles.cpp:315-342 and rpu_base_tiles_cuda.cpp:131-143).

Simplifications: clipping is over the reals, remapping over the rationals; not-a-number is an error. Weights are
column-major: the weight from input `j` to output `i` is element `j * d_size + i`. Sums and maxima of the device
library are sums and maxima.
-/
open scoped BigOperators

namespace Aihw.GpuPost

open Aihw.PostUpdate (RemapPars orOne)
open Aihw.PostUpdate.Clip (ClipPars clampR)

/-! ## Clipping -/

/-- `Maximizer(x_size, abs).compute(weights, d_size, trans)`: largest magnitude in row `i`. -/
noncomputable def rowMaxR (d x : ℕ) (w : ℕ → ℝ) (i : ℕ) : ℝ :=
  ((List.range x).map fun j => |w (j * d + i)|).foldr max 0

/-- `max_clip > 0 ? MIN(abs_a, max_clip) : abs_a` (weight_clipper_cuda.cu:30-33, 42-45). -/
noncomputable def limited (fixed a : ℝ) : ℝ := if 0 < fixed then min a fixed else a

/-- `kernelAClipC` and `kernelAClipSqrt` as maps over the elements (weight_clipper_cuda.cu:27-48), for a bound `b`. -/
noncomputable def clipKernel (size : ℕ) (b : ℝ) (w : ℕ → ℝ) : ℕ → ℝ :=
  GpuIo.mapTo size (fun _ v => clampR (-b) b v) w w

/-- `Σ (w - m)²` with `m` the sum divided by the size (weight_clipper_cuda.cu:15-25, 103-113). -/
noncomputable def sqDev (size : ℕ) (w : ℕ → ℝ) : ℝ :=
  ∑ k ∈ Finset.range size,
    (w k - (∑ l ∈ Finset.range size, w l) / size) * (w k - (∑ l ∈ Finset.range size, w l) / size)

/-- The bound of `LayerGaussian` before the limit; `none` is not-a-number: the unsigned 0/0 of a single weight
(weight_clipper_cuda.cu:41). -/
noncomputable def gaussBound (p : ClipPars) (size : ℕ) (w : ℕ → ℝ) : Option ℝ :=
  if size = 1 then none else some (Real.sqrt (|sqDev size w| / ((size : ℝ) - 1)) * p.sigma)

/-- `WeightClipperCuda::apply` (weight_clipper_cuda.cu:64-127). `MIN(NaN, max_clip)` is `max_clip`; without a limit the
weight becomes not-a-number. An empty array has no elements. -/
noncomputable def clip (p : ClipPars) (d x : ℕ) (w : ℕ → ℝ) : Except PyErr (ℕ → ℝ) :=
  match p.type with
  | .averageChannelMax =>
    .ok (clipKernel (d * x) (limited p.fixedValue |(∑ i ∈ Finset.range d, rowMaxR d x w i) / d|) w)
  | .layerGaussian =>
    match gaussBound p (d * x) w with
    | some b => .ok (clipKernel (d * x) (limited p.fixedValue b) w)
    | none => if 0 < p.fixedValue then .ok (clipKernel (d * x) p.fixedValue w) else .error .nanInf
  | .fixedValue => .ok (if 0 < p.fixedValue then clipKernel (d * x) |p.fixedValue| w else w)

/-- The kind of a tile as far as clipping and remapping are concerned: a floating-point tile (`RPUSimple`,
`RPUCudaSimple`), a pulsed tile with a floating-point device, or a pulsed tile with another device. -/
inductive TileKind where
  | simple | pulsedFP | pulsedOther
  deriving DecidableEq

/-- `RPUCudaSimple::clipWeights(wclpar)` and `RPUCudaPulsed::clipWeights(wclpar)` (rpucuda.cu:740-748,
rpucuda_pulsed.cu:270-284) with the floating-point device's `clipWeights` (rpucuda_simple_device.cu:303-308). What
another device does with a fixed value is a parameter. -/
noncomputable def tileClip (k : TileKind) (dev : ℝ → (ℕ → ℝ) → ℕ → ℝ) (p : ClipPars) (d x : ℕ) (w : ℕ → ℝ) :
    Except PyErr (ℕ → ℝ) :=
  match k with
  | .simple => clip p d x w
  | .pulsedFP =>
    if p.type = .fixedValue then .ok (if 0 ≤ p.fixedValue then clipKernel (d * x) |p.fixedValue| w else w)
    else clip p d x w
  | .pulsedOther => if p.type = .fixedValue then .ok (dev p.fixedValue w) else .error .runtimeError

/-! ## Remapping -/

abbrev Arr := GpuIo.Arr ℚ

/-- `Maximizer::compute(weights, 1, false)` over all weights. -/
def layerMax (size : ℕ) (w : Arr) : ℚ := absMax ((List.range size).map w)

/-- `Maximizer::compute(weights, d_size, true)`: row `i`. -/
def rowMax (d x : ℕ) (w : Arr) (i : ℕ) : ℚ := absMax ((List.range x).map fun j => w (j * d + i))

/-- The loops of the kernels: an index below the number of weights is visited, its weight is rewritten, and if it is
also below `d_size` the scale of that index is. -/
def remapLoop (order : List ℕ) (d : ℕ) (wBody sBody : ℕ → ℚ → ℚ) (ws : Arr × Arr) : Arr × Arr :=
  order.foldl (fun (s : Arr × Arr) idx =>
    (Function.update s.1 idx (wBody idx (s.1 idx)),
     if idx < d then Function.update s.2 idx (sBody idx (s.2 idx)) else s.2)) ws

/-- The same as maps (`C12_gpu_loop`). -/
def remapKernel (d size : ℕ) (wBody sBody : ℕ → ℚ → ℚ) (ws : Arr × Arr) : Arr × Arr :=
  (GpuIo.mapTo size wBody ws.1 ws.1,
   fun idx => if idx < size ∧ idx < d then sBody idx (ws.2 idx) else ws.2 idx)

/-- `kernelRemapScale` (weight_remapper_cuda.cu:15-42). -/
def kScale (d x : ℕ) (wmax m : ℚ) (ws : Arr × Arr) : Arr × Arr :=
  let mv := orOne (|m| / wmax)
  remapKernel d (x * d) (fun _ w => w / mv) (fun _ s => s * mv) ws

/-- `kernelRemapScaleRowwise` (weight_remapper_cuda.cu:44-76). -/
def kRows (d x : ℕ) (wmax : ℚ) (m : ℕ → ℚ) (ws : Arr × Arr) : Arr × Arr :=
  remapKernel d (x * d) (fun idx w => w / orOne (|m (idx % d)| / wmax)) (fun idx s => s * orOne (|m (idx % d)| / wmax)) ws

/-- The smallest scale as the kernel gets it: `max(-scales)`, its magnitude, at least the reference
(weight_remapper_cuda.cu:236-238, 361-363). -/
def gpuMinScale (d : ℕ) (range ref : ℚ) (s : Arr) : ℚ :=
  let negMin := ((List.range d).map fun i => -s i).foldl max (-s 0)
  if 0 < |range| then max |negMin| ref else 0

/-- New scale of a row (weight_remapper_cuda.cu:245-256). -/
def rangeScale (range mn m s : ℚ) : ℚ :=
  let ns := |s| * orOne |m|
  if 0 < mn then (if ns / mn > |range| then |range| * mn else ns) else ns

/-- `kernelRemapScaleRowwiseRange` (weight_remapper_cuda.cu:218-264); the old scales are a copy. -/
def kRange (d x : ℕ) (range ref : ℚ) (m : ℕ → ℚ) (ws : Arr × Arr) : Arr × Arr :=
  let old := ws.2
  let mn := gpuMinScale d range ref old
  let ns := fun i => rangeScale range mn (m i) (old i)
  remapKernel d (x * d) (fun idx w => w * |old (idx % d)| / ns (idx % d)) (fun idx _ => ns (idx % d)) ws

/-- `WeightRemapperCuda::apply` (weight_remapper_cuda.cu:316-386) for the types that Python can select. Dividing by
`remapped_wmax = 0` or by a new scale of zero is an error. -/
def remap (p : RemapPars) (d x : ℕ) (ws : Arr × Arr) : Except PyErr (Arr × Arr) :=
  match p.type with
  | .layerwise =>
    if p.remappedWmax = 0 then .error .nanInf else .ok (kScale d x p.remappedWmax (layerMax (x * d) ws.1) ws)
  | .channelwise =>
    if p.maxScaleRange ≤ 0 then
      if p.remappedWmax = 0 then .error .nanInf else .ok (kRows d x p.remappedWmax (rowMax d x ws.1) ws)
    else if p.remappedWmax ≠ 1 then .error .runtimeError
    else if (List.range d).any (fun i =>
        rangeScale p.maxScaleRange (gpuMinScale d p.maxScaleRange p.maxScaleRef ws.2) (rowMax d x ws.1 i) (ws.2 i) = 0)
      then .error .nanInf
    else .ok (kRange d x p.maxScaleRange p.maxScaleRef (rowMax d x ws.1) ws)

/-- `remap_weights` of the CUDA tile: the binding checks the number of scales (rpu_base_tiles_cuda.cpp:131-141), then
`RPUCudaSimple::remapWeights` or `RPUCudaPulsed::remapWeights` (rpucuda.cu:841-854, rpucuda_pulsed.cu:286-305), which
refuses devices without floating-point update the first time. -/
def tileRemap (k : TileKind) (p : RemapPars) (d x : ℕ) (w : Arr) (scales : Vec) : Except PyErr (Arr × Vec) :=
  if scales.length ≠ d then .error .runtimeError
  else if k = .pulsedOther then .error .runtimeError
  else match remap p d x (w, fun i => scales.getD i 0) with
    | .ok ws => .ok (ws.1, (List.range d).map ws.2)
    | .error e => .error e

end Aihw.GpuPost
