import Verif.Decay.Props
import Verif.GpuIo.Props

/-!
# Decay, diffusion, clipping and reset of the weights on the GPU (C89)

The weights of a device on the GPU are in column-major memory: output `i`, input `j` is at `j * d + i`. A kernel visits its
elements in the order in which the threads happen to run.
-/
namespace Aihw.GpuDecay

open Aihw.Pulsed

variable {K : Type} [Field K] [LinearOrder K] [IsStrictOrderedRing K] [FloorRing K]

/-- The parameters of a device on the GPU that the operations read (rpucuda_pulsed_device.cu:19-40). `bias` and `diff` are
`none` for null pointers. -/
structure GDev (K : Type) where
  kd : Kind K
  par : Par K
  x : ℕ
  d : ℕ
  minB : ℕ → K
  maxB : ℕ → K
  decay : ℕ → K
  diff : Option (ℕ → K)
  bias : Option (ℕ → K)

/-- The flat index on the CPU (row-major) of the element at `t` on the GPU, as the two loops of `populateFrom` pair them
(rpucuda_pulsed_device.cu:128-136). -/
def rowMajor (x d t : ℕ) : ℕ := t % d * x + t / d

/-- `PulsedRPUDeviceCuda::populateFrom` (rpucuda_pulsed_device.cu:97-180): the parameters are transposed; diffusion rates
and reset biases are stored only if one of them is not zero. Simplification: the step sizes, the slopes and the pulse counters,
which the operations below don't read, are left out. -/
def populate (c : Dev K) : GDev K :=
  let at' : (Cell K → K) → ℕ → K := fun f t => f (c.cell (rowMajor c.xSize c.dSize t))
  { kd := c.kd
    par := c.par
    x := c.xSize
    d := c.dSize
    minB := at' Cell.minB
    maxB := at' Cell.maxB
    decay := at' Cell.decay
    diff := if (List.range (c.xSize * c.dSize)).any fun l => decide ((c.cell l).diff ≠ 0) then some (at' Cell.diff) else none
    bias := if (List.range (c.xSize * c.dSize)).any fun l => decide ((c.cell l).resetB ≠ 0) then some (at' Cell.resetB)
      else none }

/-- The weights of the tile and the persistent weights of the device. -/
structure Mem (K : Type) where
  vis : ℕ → K
  per : ℕ → K

/-- The bounds check in the kernels (cuda_math_util.cu:546-548, 684-686, 724-726, 869-871). -/
def sat (g : GDev K) (t : ℕ) (w : K) : K :=
  let w := if g.maxB t < w then g.maxB t else w
  if w < g.minB t then g.minB t else w

/-- `applyUpdateWriteNoise` on the GPU (rpucuda_pulsed_device.cu:346-364, kernel cuda_math_util.cu:1407-1413); the factor is
`write_noise_std`, not multiplied by `dw_min`. -/
def gpuNoise (g : GDev K) (order : List ℕ) (n : ℕ → K) (m : Mem K) : Mem K :=
  if !(persistent g.kd g.par) || !(implementsWriteNoise g.kd) then m
  else { m with vis := GpuIo.loopOut order (fun t a => 1 * a + g.par.writeNoise * n t) m.per m.vis }

/-- The pattern of all operations: a change of the persistent weights if there are any, otherwise of the weights, and then
the write noise (for instance rpucuda_pulsed_device.cu:223-231). -/
def onMem (g : GDev K) (f : (ℕ → K) → ℕ → K) (order : List ℕ) (n : ℕ → K) (m : Mem K) : Mem K :=
  gpuNoise g order n (if persistent g.kd g.par then { m with per := f m.per } else { m with vis := f m.vis })

/-- The number of elements that decay (rpucuda_pulsed_device.cu:227, 239). -/
def decaySize (g : GDev K) (biasNoDecay : Bool) : ℕ := if biasNoDecay then g.x * g.d - g.d else g.x * g.d

/-- `decayWeights`, with and without `alpha` (rpucuda_pulsed_device.cu:221-244, kernels cuda_math_util.cu:580-599, 707-731). -/
def gpuDecay (g : GDev K) (alpha : Option K) (o1 o2 : List ℕ) (n : ℕ → K) (m : Mem K) : Mem K :=
  onMem g (GpuIo.loopIn o1 fun t w =>
    let s := g.bias.elim 0 fun b => b t
    let scale := alpha.elim (g.decay t) fun a => 1 + a * (g.decay t - 1)
    sat g t ((w - s) * scale + s)) o2 n m

/-- `diffuseWeights` (rpucuda_pulsed_device.cu:257-284, kernel cuda_math_util.cu:532-552). -/
def gpuDiffuse (g : GDev K) (r : ℕ → K) (o1 o2 : List ℕ) (n : ℕ → K) (m : Mem K) : Mem K :=
  match g.diff with
  | none => m
  | some df => onMem g (GpuIo.loopIn o1 fun t w => sat g t (w + r t * df t)) o2 n m

/-- `clipWeights` (rpucuda_pulsed_device.cu:286-295, kernels cuda_math_util.cu:677-689, 1308-1317). -/
def gpuClip (g : GDev K) (clip : K) (o1 o1' o2 : List ℕ) (n : ℕ → K) (m : Mem K) : Mem K :=
  onMem g (fun w =>
    let w := GpuIo.loopIn o1 (fun t w => sat g t w) w
    if 0 ≤ clip then GpuIo.loopIn o1' (fun _ w => min (max w (-|clip|)) |clip|) w else w) o2 n m

/-- `kernelElemResetSat` (cuda_math_util.cu:845-876) with the pointers into weights, biases and bounds moved by `off` and
those into the random numbers by `roff`; `nr` and `fl` are `none` for null pointers. -/
def resetKernel (g : GDev K) (nr fl : Option (ℕ → K)) (prob : K) (order : List ℕ) (off roff : ℕ) (w : ℕ → K) : ℕ → K :=
  order.foldl (fun w idx =>
    let a := g.bias.elim 0 fun b => b (off + idx)
    let p := fl.elim 0 fun u => u (roff + idx)
    let b := nr.elim 0 fun z => z (roff + idx)
    if p < prob then Function.update w (off + idx) (sat g (off + idx) (a + b)) else w) w

/-- `resetCols` (rpucuda_pulsed_device.cu:384-451), after the check that the probability is not zero
(rpucuda_pulsed.cu:328-334). `u` are the uniform, `z` the standard normal random numbers; `o1`, `o2` are the orders in the first
and second pass, by the number of elements. Simplification: sizes are natural numbers, for a first column inside the matrix; the
random numbers are unlimited (the code writes `n_cols * d` of them into buffers of the size of the matrix). -/
def gpuReset (g : GDev K) (start : ℕ) (nColsIn : ℤ) (prob : K) (u z : ℕ → K) (o1 o2 : ℕ → List ℕ) (o3 : List ℕ)
    (n : ℕ → K) (m : Mem K) : Mem K :=
  let nCols := if 0 ≤ nColsIn then nColsIn.toNat else g.x
  let cnt := nCols * g.d
  let offset := start * g.d
  let nr := if 0 < g.par.resetStd then some fun k => g.par.resetStd * z k else none
  let fl := if prob < 1 then some u else none
  onMem g (fun w =>
    if g.x * g.d ≤ cnt then resetKernel g nr fl prob (o1 (g.x * g.d)) 0 0 w
    else if offset + cnt ≤ g.x * g.d then resetKernel g nr fl prob (o1 cnt) offset 0 w
    else
      let mm := g.x * g.d - offset
      resetKernel g nr fl prob (o2 (cnt - mm)) 0 mm (resetKernel g nr fl prob (o1 mm) offset 0 w)) o3 n m

end Aihw.GpuDecay
