import Verif.Pulsed.Drift
import Verif.GpuIo.Model
import Mathlib.Analysis.SpecialFunctions.Log.Base

/-!
# Weight drift on the GPU, and the drift clock in copies and checkpoints (C47)

src/rpucuda/cuda/weight_drifter_cuda.cu; where tiles and devices save and load their drifter: src/rpucuda/rpu.cpp:410-428,
452-474; src/rpucuda/cuda/rpucuda.cu:204-265; src/rpucuda/rpu_simple_device.cpp:70-87;
src/rpucuda/cuda/rpucuda_simple_device.cu:174-211; `insertWithPrefix`, `selectWithPrefix`, `load`
(src/rpucuda/utility_functions.cpp:26-65, 115-137).

Simplifications: real numbers for floats; the random numbers a call draws are functions of the element; the names in a
saved state are lists of parts, which the code joins by dots.
-/
namespace Aihw.GpuPost
open Aihw.Pulsed (DriftPar DriftSt)

/-- Weights and the arrays of the drifter on the device. -/
structure DriftMem where
  w : ℕ → ℝ
  prev : ℕ → ℝ
  w0 : ℕ → ℝ
  t : ℕ → ℝ

/-- The drift coefficient of element `i`; `nu_values` is null for simple drift (weight_drifter_cuda.cu:69-70). -/
def cellNu (p : DriftPar) (nus : Option (ℕ → ℝ)) (i : ℕ) : ℝ :=
  match nus with
  | none => p.nu
  | some f => f i

/-- The drift exponent of element `i` (weight_drifter_cuda.cu:70-76); the logarithm has base ten. -/
noncomputable def gpuNu (p : DriftPar) (nus : Option (ℕ → ℝ)) (i : ℕ) (w g : ℝ) : ℝ :=
  let nu := if p.nuStd ≤ 0 then cellNu p nus i else cellNu p nus i + p.nuStd * cellNu p nus i * g
  if p.nuK = 0 then nu
  else nu - p.nuK * Real.logb 10 ((w - p.wOffset) / p.wgRatio + p.gOffset) + p.nuK * p.logG0

/-- `kernelDriftWeights` at element `i` (weight_drifter_cuda.cu:52-89); `a` is the offset term, `cur` the clock. -/
noncomputable def driftVisit (p : DriftPar) (nus : Option (ℕ → ℝ)) (a cur : ℝ) (g g2 : ℕ → ℝ) (m : DriftMem) (i : ℕ) :
    DriftMem :=
  let w := m.w i
  let noise := if 0 < p.readStd then p.readStd * g2 i else 0
  if p.tol < |m.prev i - w| then
    ⟨Function.update m.w i (w + noise), Function.update m.prev i (w + noise), Function.update m.w0 i w,
      Function.update m.t i cur⟩
  else
    let sc := (max (cur - m.t i) 1) ^ (-(gpuNu p nus i w (g i)))
    let w1 := m.w0 i * sc
    let w2 := if a = 0 then w1 else w1 + a * (sc - 1)
    ⟨Function.update m.w i (w2 + noise), Function.update m.prev i (w2 + noise), m.w0, m.t⟩

/-- The stride loop of the kernel, in some order (weight_drifter_cuda.cu:48-91). -/
noncomputable def driftLoop (order : List ℕ) (p : DriftPar) (nus : Option (ℕ → ℝ)) (a cur : ℝ) (g g2 : ℕ → ℝ)
    (m : DriftMem) : DriftMem := order.foldl (driftVisit p nus a cur g g2) m

/-- `WeightDrifterCuda`: the arrays other than the weights, and the clock; `none` while not active. -/
structure GpuDrifter where
  prev : ℕ → ℝ
  w0 : ℕ → ℝ
  t : ℕ → ℝ
  cur : ℝ

/-- `initialize` (weight_drifter_cuda.cu:198-225). -/
def gpuInit (w : ℕ → ℝ) : GpuDrifter := ⟨w, w, fun _ => 0, 0⟩

/-- One call: elapsed time and draws. -/
structure GpuCall where
  dt : ℝ
  g : ℕ → ℝ
  g2 : ℕ → ℝ

/-- `apply` (weight_drifter_cuda.cu:227-256), the threads running in some order. -/
noncomputable def gpuDrift (order : List ℕ) (p : DriftPar) (nus : Option (ℕ → ℝ)) (s : Option GpuDrifter) (w : ℕ → ℝ)
    (c : GpuCall) : (ℕ → ℝ) × GpuDrifter :=
  let s := s.getD (gpuInit w)
  let cur := s.cur + c.dt / p.t0
  let m := driftLoop order p nus p.a cur c.g c.g2 ⟨w, s.prev, s.w0, s.t⟩
  (m.w, ⟨m.prev, m.w0, m.t, cur⟩)

/-- A sequence of calls without any other change of the weights; every call has its own order. -/
noncomputable def gpuRun (p : DriftPar) (nus : Option (ℕ → ℝ)) :
    Option GpuDrifter → (ℕ → ℝ) → List (List ℕ × GpuCall) → (ℕ → ℝ) × Option GpuDrifter
  | s, w, [] => (w, s)
  | s, w, c :: l =>
    let r := gpuDrift c.1 p nus s w c.2
    gpuRun p nus (some r.2) r.1 l

/-! ## Saved states -/

/-- `RPU::state_t`: a map from names to values. -/
abbrev Dict (V : Type) := List (List String × V)

variable {V : Type}

/-- `state.at(key)`. -/
def Dict.at (d : Dict V) (k : List String) : Option V := (d.find? fun e => e.1 == k).map (·.2)

/-- `insertWithPrefix` (utility_functions.cpp:115-123). -/
def Dict.insertWithPrefix (extra state : Dict V) (pre : String) : Dict V :=
  extra ++ state.map fun e => (pre :: e.1, e.2)

/-- `selectWithPrefix` (utility_functions.cpp:126-137). -/
def Dict.selectWithPrefix (extra : Dict V) (pre : String) : Dict V :=
  extra.filterMap fun e => match e.1 with
    | [] => none
    | a :: l => if a = pre then some (l, e.2) else none

/-- What a drifter saves; the arrays and numbers are values of any type. -/
structure DrifterState (V : Type) where
  active : V
  currentT : V
  prev : V
  w0 : V
  t : V
  nu : V

/-- Names of the arrays: on the GPU they begin with `dev_` (weight_drifter.cpp:68-80, weight_drifter_cuda.cu:130-142). -/
def arrayName (gpu : Bool) (n : String) : String := if gpu then "dev_" ++ n else n

/-- `WeightDrifter::dumpExtra`, `WeightDrifterCuda::dumpExtra`. -/
def DrifterState.dump (gpu : Bool) (s : DrifterState V) (extra : Dict V) (pre : String) : Dict V :=
  extra.insertWithPrefix [(["active"], s.active), (["current_t"], s.currentT),
    ([arrayName gpu "previous_weights"], s.prev), ([arrayName gpu "w0"], s.w0), ([arrayName gpu "t"], s.t),
    ([arrayName gpu "nu"], s.nu)] pre

/-- `RPU::load` (utility_functions.cpp:26-65): a missing key is an error only if strict. -/
def loadKey (d : Dict V) (k : String) (strict : Bool) (old : V) : Except PyErr V :=
  match d.at [k] with
  | some v => .ok v
  | none => if strict then .error .runtimeError else .ok old

/-- `loadExtra` of the drifters (weight_drifter.cpp:82-93, weight_drifter_cuda.cu:144-157). -/
def DrifterState.load (gpu : Bool) (s : DrifterState V) (extra : Dict V) (pre : String) (strict : Bool) :
    Except PyErr (DrifterState V) := do
  let d := extra.selectWithPrefix pre
  let prev ← loadKey d (arrayName gpu "previous_weights") strict s.prev
  let w0 ← loadKey d (arrayName gpu "w0") strict s.w0
  let t ← loadKey d (arrayName gpu "t") strict s.t
  let nu ← loadKey d (arrayName gpu "nu") strict s.nu
  let cur ← loadKey d "current_t" strict s.currentT
  let act ← loadKey d "active" strict s.active
  return ⟨act, cur, prev, w0, t, nu⟩

/-- Which tile: floating point or pulsed, CPU or GPU. -/
structure TileType where
  pulsed : Bool
  gpu : Bool
  deriving DecidableEq

/-- The name under which the drifter is saved: `wdrifter` on the CPU, `wdrifter_cuda` on the GPU (rpu.cpp:426-428,
rpucuda.cu:219-221, rpu_simple_device.cpp:72-78, rpucuda_simple_device.cu:174-182). -/
def saveName (k : TileType) : String := if k.gpu then "wdrifter_cuda" else "wdrifter"

/-- The name under which it is loaded: `wdrifter` in the device on the GPU as well (rpucuda_simple_device.cu:190). -/
def loadName (k : TileType) : String := if k.gpu ∧ ¬k.pulsed then "wdrifter_cuda" else "wdrifter"

/-- What a tile saves: the drifter if there is one, and everything else. -/
def saveTile (k : TileType) (s : Option (DrifterState V)) (others : Dict V) : Dict V :=
  match s with
  | some s => s.dump k.gpu others (saveName k)
  | none => others

/-- What a tile does with a saved state (rpu.cpp:469-474, rpucuda.cu:258-265; rpu_simple_device.cpp:80-87,
rpucuda_simple_device.cu:184-192). A floating-point tile asks for a key that is exactly the name of the drifter, and makes
a drifter `new` if it has none; a pulsed device loads if it has a drifter. -/
def loadTile (k : TileType) (new : DrifterState V) (s : Option (DrifterState V)) (saved : Dict V) (strict : Bool) :
    Except PyErr (Option (DrifterState V)) :=
  if k.pulsed then
    match s with
    | some s => (s.load k.gpu saved (loadName k) strict).map some
    | none => .ok none
  else if (saved.at [loadName k]).isSome then
    ((s.getD new).load k.gpu saved (loadName k) strict).map some
  else .ok s

end Aihw.GpuPost
