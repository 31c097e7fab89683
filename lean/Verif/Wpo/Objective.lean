import Verif.Wpo.Model
import Mathlib.Algebra.Order.Field.Basic
import Mathlib.Data.List.Sort

/-!
# Model of the weight programming optimizer: objective, baseline, run

src/aihwkit/inference/converter/wpo.py, the parts around `denormalize`.  Programming and drifting the test layer is an arbitrary
function (a converter, a mapping and the random draws give the effective weights at every time step).  scipy's search is an
arbitrary point with its objective value.  Not-a-number errors (turned into infinity) do not arise: weights are numbers.
-/
namespace Aihw.Wpo
open Aihw.Inference

variable {K : Type} [Field K] [LinearOrder K]

/-- A matrix, row by row. -/
abbrev Mat (K : Type) := List (List K)

/-- wpo.py:215-225: `nse` of one time step. -/
def nseStep (maxAbs : K) (test eff : Mat K) : K :=
  (List.zipWith (fun re rt => (List.zipWith (fun e t => (10 * (e - t) / maxAbs) ^ 2) re rt).sum) eff test).sum

/-- wpo.py:204-226: `nse / (in_features * out_features * len(t_steps))`; no time step is a division of zero by zero. -/
def tnmse (maxAbs : K) (nIn nOut : Nat) (test : Mat K) (effs : List (Mat K)) : Except PyErr K :=
  if nIn * nOut * effs.length = 0 ∨ maxAbs = 0 then .error .nanInf
  else .ok ((effs.map (nseStep maxAbs test)).sum / ((nIn * nOut * effs.length : Nat) : K))

/-- wpo.py:230: what `loss_weights` returns. -/
def lossOut (getBaseline : Bool) (baseline margin e : K) : Except PyErr K :=
  if getBaseline then .ok e else if baseline = 0 then .error .nanInf else .ok ((e - baseline) / baseline + margin)

/-- wpo.py:80-105 `stop_criterion` raises `StopIteration`. -/
def stops (fun_ : K) : Bool := fun_ < 0

/-- The optimizer object as far as `run_optimizer` reads and writes it; `C` are converters, `M` mappings. -/
structure OptState (K C M : Type) where
  opt : Opt K
  /-- `rpu_config.noise_model.g_converter`. -/
  conv : C
  /-- `rpu_config.mapping`. -/
  mapping : M
  /-- `mapping_saved`. -/
  saved : M
  /-- `g_converter_baseline`. -/
  convBaseline : C
  lossBaseline : K
  bestLoss : K
  margin : K
  iterations : Nat

/-- The world: the error (`tnmse`) of a converter under a mapping, for the `k`-th evaluation, and the converter made of factors and
conductance rows. -/
structure World (K C M : Type) where
  err : C → M → Nat → K
  build : List K → List (List (Option K)) → C

variable {C M : Type}

/-- wpo.py:567-598 `get_loss_baseline`: the copied `rpu_config` with the baseline converter is never used. -/
def getLossBaseline (w : World K C M) (s : OptState K C M) (k0 : Nat) : Except PyErr K :=
  if s.iterations = 0 then .error .zeroDivision
  else .ok (((List.range s.iterations).map fun k => w.err s.conv s.mapping (k0 + k)).sum / s.iterations)

/-- wpo.py:377-399 `loss_fxn`: the objective at a point of the cube (evaluation number `k`). -/
def lossFxn (w : World K C M) (s : OptState K C M) (k : Nat) (x : List K) : Except PyErr K := do
  let (fs, g) ← denormalize s.opt x
  lossOut false s.lossBaseline s.margin (w.err (w.build fs g) s.mapping k)

/-- The value of `success`: `True` or the final objective (wpo.py:637). -/
inductive Success (K : Type) where
  | yes
  | num (v : K)
deriving DecidableEq

/-- Python truth value. -/
def Success.truthy : Success K → Bool
  | .yes => true
  | .num v => v ≠ 0

/-- wpo.py:637. -/
def successOf (f : K) : Success K := if f < 0 then .yes else .num f

/-- wpo.py:649-673 `run_optimizer`, with scipy's result `(x, fun)`. -/
def runOptimizer (w : World K C M) (s : OptState K C M) (k0 : Nat) (x : List K) (f : K) :
    Except PyErr (OptState K C M × C × Success K) := do
  let b ← getLossBaseline w s k0
  let (fs, g) ← denormalize s.opt x
  .ok ({ s with lossBaseline := b, bestLoss := (f - s.margin) * b + b, mapping := s.saved, conv := w.build fs g,
                opt := { s.opt with fLst := fs.map some } }, w.build fs g, successOf f)

/-- `F.interpolate(mode="linear", align_corners=True)` of a vector to size `n` (wpo.py:66-71): position `j (m - 1) / (n - 1)`, position
zero for size one. -/
def interpAt (s : List K) (n j : Nat) : K :=
  let p := j * (s.length - 1)
  let i := p / (n - 1)
  let lam : K := (p % (n - 1) : Nat) / ((n - 1 : Nat) : K)
  if n = 1 then s.getD 0 0 else (1 - lam) * s.getD i 0 + lam * s.getD (min (i + 1) (s.length - 1)) 0

/-- wpo.py:52-77, 231-244 `downsample_weight_distribution` to `rows × cols`; `σ` is the shuffled order of the rows
(`np.random.shuffle` permutes the first dimension only). Interpolating an empty tensor raises. -/
def downsample (w : List K) (rows cols : Nat) (σ : List Nat) : Except PyErr (Mat K) :=
  if w = [] ∨ rows * cols = 0 then .error .runtimeError
  else
    let s := w.mergeSort (· ≤ ·)
    .ok (σ.map fun r => (List.range cols).map fun c => interpAt s (rows * cols) (r * cols + c))

end Aihw.Wpo
