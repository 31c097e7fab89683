import Verif.Pulsed.UpdateScaleProps
import Verif.Gpu.Model

/-!
# Train length and pulse probabilities on the GPU (C35)

`kernelUMGetScaleAndKValues` and `computeKandScaleValues` (src/rpucuda/cuda/update_management_helper.cu:416-457,
670-707), and how `BitLineMaker::makeCounts` (src/rpucuda/cuda/bit_line_maker.cu:1943-2160) turns the results into the
probabilities of its pulse trains (bit_line_maker.cu:966-1009) or into the values of implicit pulses (1258-1289).

Simplifications: real numbers for floats. The maxima per sample are computed by the device library. How the trains are
laid out in memory is C94, C95; what the update kernels do with them is C96.
-/
namespace Aihw.GpuPulse

open Aihw.Pulsed (UpPar BLAB discretized rint)

/-- A batch on the device: entries per sample, and the array. -/
structure Input where
  trans : Bool
  size : ℕ
  data : ℕ → ℝ

/-- The array index of entry `j` of sample `b` of `m` (the layouts of bit_line_maker.cu:733-745). -/
def Input.pos (v : Input) (m b j : ℕ) : ℕ := if v.trans then j * m + b else b * v.size + j

/-- Entry `j` of sample `b` of `m`. -/
def Input.sample (v : Input) (m b j : ℕ) : ℝ := v.data (v.pos m b j)

/-- `Maximizer::compute`: the largest magnitude of each sample (update_management_helper.cu:689-690). -/
noncomputable def Input.amax (v : Input) (m b : ℕ) : ℝ :=
  ((List.range v.size).map fun j => |v.sample m b j|).foldr max 0

/-- `k_val` of `kernelUMGetScaleAndKValues` (update_management_helper.cu:434-436). -/
noncomputable def kVal (u : UpPar) (lr g xm dm : ℝ) : ℝ := |lr| * xm * (dm * u.umGradScale) / g

/-- `scale_values` (update_management_helper.cu:438-442, 450). -/
noncomputable def umScale (u : UpPar) (kmax : ℤ) (lr g xm dm : ℝ) : ℝ :=
  let d := dm * u.umGradScale
  let k := kVal u lr g xm dm
  if 0 < k then √(xm / (if (kmax : ℝ) < k then d * (kmax / k) else d)) else 1

/-- `K_values` (update_management_helper.cu:444-447, 451-453). -/
noncomputable def umK (u : UpPar) (kmax : ℤ) (lr g xm dm : ℝ) : ℤ :=
  let k := kVal u lr g xm dm
  if 0 < k then (if ⌈k⌉ ≤ kmax then ⌈k⌉ else kmax) else 1

/-- `getScaleProb` (bit_line_maker.cu:844-855). -/
noncomputable def scaleProb (u : UpPar) (p : ℝ) (k : ℤ) (lr g : ℝ) : ℝ := if u.ublm then √(lr / g / k) else p

/-- What `makeCounts` prepares for the kernels that draw the pulses: the number of slots of each sample and the factors
`sprob` of `d` and `x` in each sample. -/
structure Prep where
  slots : ℕ → ℤ
  dFactor : ℕ → ℝ
  xFactor : ℕ → ℝ

/-- `makeCounts` up to the kernels, and `getK`, `getScale`, `sprob` in them (bit_line_maker.cu:1972-2020, 660-669,
750-760, 987-989): `*` for `d`, `/` for `x`. The scale is 1 without update management. -/
noncomputable def prepare (u : UpPar) (lr g : ℝ) (m : ℕ) (x d : Input) : Except PyErr Prep :=
  match u.calculateBlAB lr g with
  | .error e => .error e
  | .ok r =>
    let k := fun b => if u.ublm then umK u r.bl lr g (x.amax m b) (d.amax m b) else r.bl
    let s := fun b => if u.um then umScale u r.bl lr g (x.amax m b) (d.amax m b) else 1
    .ok ⟨k, fun b => scaleProb u r.a (k b) lr g * s b, fun b => scaleProb u r.b (k b) lr g / s b⟩

/-- `value` of the array element `idx` when its pulses are drawn: magnitude times factor, with stochastic rounding by the
draw `q` (bit_line_maker.cu:980-994, 206-222). -/
noncomputable def probAt (v : Input) (m : ℕ) (factor : ℕ → ℝ) (res : ℝ) (sto : Bool) (q : ℕ → ℝ) (idx : ℕ) : ℝ :=
  discretized res sto (|v.data idx| * factor (Gpu.getBatchIdx v.trans idx v.size m)) (q idx)

/-- Whether the element `idx` pulses in slot `k`, for the uniform draw `r` (bit_line_maker.cu:883-964, 983-1000): no slots,
a zero value and a zero probability are passed over. -/
noncomputable def hit (v : Input) (m : ℕ) (slots : ℕ → ℤ) (factor : ℕ → ℝ) (res : ℝ) (sto : Bool) (q : ℕ → ℝ)
    (r : ℕ → ℕ → ℝ) (k idx : ℕ) : Bool :=
  decide ((k : ℤ) < slots (Gpu.getBatchIdx v.trans idx v.size m)) && !decide (v.data idx = 0) &&
    !decide (probAt v m factor res sto q idx = 0) && decide (r k idx < probAt v m factor res sto q idx)

/-- The value of implicit pulses of `idx`: limited, then discretized (bit_line_maker.cu:1276-1283). -/
noncomputable def implicitAt (v : Input) (m : ℕ) (factor : ℕ → ℝ) (res : ℝ) (idx : ℕ) : ℝ :=
  discretized res false (min (max (v.data idx * factor (Gpu.getBatchIdx v.trans idx v.size m)) (-1)) 1) 0

/-- Implicit pulses of a cell: `x` carries the number of slots (bit_line_maker.cu:1349-1352), the count is rounded and its
sign is the disagreement of the signs (src/rpucuda/cuda/pwu_kernel.h:130-148). -/
noncomputable def implicitCount (k : ℤ) (x d : ℝ) : ℕ × Bool :=
  (if x * k = 0 ∨ d = 0 then 0 else (rint (d * (x * k))).natAbs, decide ((x * k < 0) ≠ (d < 0)))

end Aihw.GpuPulse
