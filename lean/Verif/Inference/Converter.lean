import Verif.Common
import Mathlib.Algebra.Order.Field.Basic

/-!
# Model of the conductance converters

src/aihwkit/inference/converter/conductance.py.  Tensors are flattened (all operations are elementwise apart
from maxima over the whole tensor); numbers live in an arbitrary ordered field `K` (ℚ for examples, ℝ for the noise models).
-/
namespace Aihw.Inference

variable {K : Type} [Field K] [LinearOrder K]

/-- `_ZERO_CLIP = 1e-7` (conductance.py:19). -/
def zeroClip : K := 1 / 10000000

/-- `torch_abs(weights).max()` of a non-empty tensor. -/
def amaxK (w : List K) : K := (w.map (|·|)).foldr max 0

/-- `clamp(min=lo, max=hi)`. -/
def clampK (lo hi x : K) : K := min (max x lo) hi

/-- conductance.py:36-46, 117-126, 245-273, 358-368: the range checks shared by the constructors. -/
def checkRange (gMax gMin : K) : Except PyErr Unit :=
  if gMax < 0 then .error .valueError
  else if gMin < 0 then .error .valueError
  else if gMin ≥ gMax then .error .valueError
  else .ok ()

/-! ## Single pair -/

/-- conductance.py:53-65 `SinglePairConductanceConverter.convert_to_conductances`: the two conductance tensors and
`scale_ratio`. `max()` of an empty tensor raises. -/
def singleTo (gMax gMin : K) (w : List K) : Except PyErr (List (List K) × K) :=
  if w = [] then .error .runtimeError
  else
    let ratio := (gMax - gMin) / max (amaxK w) zeroClip
    let sw := w.map (· * ratio)
    .ok ([sw.map fun x => clampK 0 gMax x + gMin, sw.map fun x => clampK 0 gMax (-x) + gMin], ratio)

/-- conductance.py:67-78 `convert_back_to_weights`; `ratio = none`: the key is missing. Division by a zero ratio gives
NaN. -/
def singleBack (gMin : K) (gs : List (List K)) (ratio : Option K) : Except PyErr (List K) :=
  match gs with
  | [gp, gm] =>
    match ratio with
    | none => .error .valueError
    | some r =>
      if r = 0 then .error .nanInf
      else .ok (List.zipWith (fun a b => ((a - gMin) - (b - gMin)) / r) gp gm)
  | _ => .error .valueError

/-! ## N pairs -/

/-- conductance.py:110-114: the checks on `f_lst` (`max([])` raises `ValueError`). -/
def checkF (fs : List K) : Except PyErr Unit :=
  match fs with
  | [] => .error .valueError
  | f :: fs => if fs.foldl max f < 0 then .error .valueError else .ok ()

/-- conductance.py:106-126 constructor of `NPairConductanceConverter`. -/
def nPairInit (fs : List K) (gMax gMin : K) : Except PyErr Unit := do
  checkF fs
  checkRange gMax gMin

/-- conductance.py:202-209 constructor of `DualPairConductanceConverter`. -/
def dualInit (fs : List K) (gMax gMin : K) : Except PyErr Unit :=
  if fs.length ≠ 2 then .error .valueError else nPairInit fs gMax gMin

/-- conductance.py:143-153: one device of a pair. -/
def pairDevice (gMax gMin lb f x : K) : K := clampK gMin gMax ((max x 0 - lb) / f + gMin)

/-- conductance.py:140-153: the loop over the factors with the running lower bound. -/
def nPairLoop (gMax gMin : K) (wus : List K) : K → List K → List (List K)
  | _, [] => []
  | lb, f :: fs =>
    wus.map (pairDevice gMax gMin lb f) :: wus.map (fun x => pairDevice gMax gMin lb f (-x)) ::
      nPairLoop gMax gMin wus (lb + f * (gMax - gMin)) fs

/-- conductance.py:133-157 `NPairConductanceConverter.convert_to_conductances`. A zero factor divides by zero
(simplification: reported as `nanInf` for the whole tensor; entries equal to the lower bound are NaN). -/
def nPairTo (fs : List K) (gMax gMin : K) (w : List K) : Except PyErr (List (List K) × K) :=
  if w = [] then .error .runtimeError
  else if 0 ∈ fs then .error .nanInf
  else
    let total := (fs.map (· * (gMax - gMin))).sum
    let ratio := total / max (amaxK w) zeroClip
    .ok (nPairLoop gMax gMin (w.map (ratio * ·)) 0 fs, ratio)

/-- conductance.py:168-172, 337-342: `weights += f * (g_plus - g_minus)` over the factors and consecutive pairs of tensors. -/
def addPairs : List K → List (List K) → List K → List K
  | f :: fs, gp :: gm :: gs, acc =>
    addPairs fs gs (List.zipWith (fun a d => a + d) acc (List.zipWith (fun p m => f * (p - m)) gp gm))
  | _, _, acc => acc

/-- conductance.py:159-174 `convert_back_to_weights` (`params` complete). -/
def nPairBack (fs : List K) (gs : List (List K)) (ratio : K) : Except PyErr (List K) :=
  if gs.length % 2 ≠ 0 then .error .valueError
  else match gs with
    | [] => .error .indexError
    | g :: _ =>
      if ratio = 0 then .error .nanInf
      else .ok ((addPairs fs gs (g.map fun _ => 0)).map (· / ratio))

/-! ## Custom pairs -/

/-- `torch.linspace(a, b, n)`. -/
def linspace (a b : K) : Nat → List K
  | 0 => []
  | 1 => [a]
  | n + 2 => (List.range (n + 2)).map fun (i : Nat) => a + (i : K) * ((b - a) / ((n + 1 : Nat) : K))

/-- `numpy.interp(x, xp, fp)` for increasing `xp` (trusted semantics: end values outside, linear between), the
sample points as a list of pairs. -/
def interp : List (K × K) → K → K
  | [], _ => 0
  | [p], _ => p.2
  | p :: q :: rest, x =>
    if x ≤ p.1 then p.2
    else if x < q.1 then p.2 + (q.2 - p.2) / (q.1 - p.1) * (x - p.1)
    else interp (q :: rest) x

/-- A custom specification: per pair the factor, `g_plus` and `g_minus` grids. -/
abbrev Spec (K : Type) := List (K × List K × List K)

/-- conductance.py:303-305: `weights_us` on the grid (`n` the grid length). -/
def codeOf (s : Spec K) (n : Nat) : List K :=
  s.foldl (fun acc p => List.zipWith (· + ·) acc (List.zipWith (fun a b => p.1 * (a - b)) p.2.1 p.2.2))
    (List.replicate n 0)

/-- conductance.py:300-324 `convert_to_conductances`, constructor checks passed. Grids of unequal length raise; a zero
code divides by zero. -/
def customTo (s : Spec K) (w : List K) : Except PyErr (List (List K) × K) :=
  match s with
  | [] => .error .indexError
  | p :: _ =>
    let n := p.2.1.length
    if s.any (fun q => q.2.1.length ≠ n ∨ q.2.2.length ≠ n) then .error .runtimeError
    else if n = 0 ∨ w = [] then .error .runtimeError
    else
      let m := amaxK (codeOf s n)
      if m = 0 then .error .nanInf
      else
        let ratio := m / max (amaxK w) zeroClip
        let grid := (linspace (-m) m n).map (· / ratio)
        .ok ((s.map fun q => [w.map (interp (grid.zip q.2.1)), w.map (interp (grid.zip q.2.2))]).flatten, ratio)

/-- conductance.py:326-344 `convert_back_to_weights` with `params["f_lst"]` = `fs`. -/
def customBack (fs : List K) (gs : List (List K)) (ratio : K) : Except PyErr (List K) :=
  if 2 * fs.length ≠ gs.length then .error .valueError
  else match gs with
    | [] => .error .indexError
    | g :: _ =>
      if ratio = 0 then .error .nanInf
      else .ok ((addPairs fs gs (g.map fun _ => 0)).map (· / ratio))

/-- Conversion to conductances and back. -/
def customTrip (s : Spec K) (w : List K) : Except PyErr (List K) := do
  let (gs, r) ← customTo s w
  customBack (s.map (·.1)) gs r

/-- `torch.allclose(a, b, atol=1e-4)` (default `rtol = 1e-5`). -/
def allclose (a b : List K) : Bool :=
  (List.zipWith (fun x y => decide (|x - y| ≤ 1 / 10000 + 1 / 100000 * |y|)) a b).all id

/-- conductance.py:278-293 `invertibility_test`. -/
def invertibilityTest (s : Spec K) : Except PyErr Unit := do
  let tw := linspace (-1) 1 5
  let rw ← customTrip s tw
  if allclose tw rw then .ok () else .error .arithmetic

/-! ## Single device -/

/-- `weights.min()`. -/
def minK (w : List K) : K := w.foldl min (w.headD 0)
/-- `weights.max()`. -/
def maxK (w : List K) : K := w.foldl max (w.headD 0)

/-- conductance.py:375-383 `SingleDeviceConductanceConverter.convert_to_conductances`: conductances, `scale_ratio`, `min`. -/
def deviceTo (gMax gMin : K) (w : List K) : Except PyErr (List K × K × K) :=
  if w = [] then .error .runtimeError
  else if maxK w - minK w = 0 then .error .nanInf
  else
    let ratio := (gMax - gMin) / (maxK w - minK w)
    .ok (w.map fun x => (x - minK w) * ratio + gMin, ratio, minK w)

/-- conductance.py:385-397 `convert_back_to_weights`. -/
def deviceBack (gMin : K) (g : List K) (ratio mn : Option K) : Except PyErr (List K) :=
  match ratio, mn with
  | some r, some m => if r = 0 then .error .nanInf else .ok (g.map fun x => m + (x - gMin) / r)
  | _, _ => .error .valueError

end Aihw.Inference
