import Verif.PostUpdate.Modifier
import Verif.GpuIo.Model

/-!
# Weight modifiers on the GPU (C42), and what becomes of modified weights in copies and checkpoints

src/rpucuda/cuda/weight_modifier_cuda.cu, `RPUCudaSimple::modifyFBWeights` and `getFBWeightsCuda`
(src/rpucuda/cuda/rpucuda.cu:819-839), copies and extra states (rpucuda.cu:91-130, 204-256; src/rpucuda/rpu.cpp:287-320,
410-420, 452-470).

Simplifications: numbers are rational; `tanh`, `log`, powers and the constant `sqrt(log(..))` are arbitrary functions and
numbers; the random numbers a thread draws are arbitrary functions of the index of the weight; the types of
`PostUpdate.Modifier` are extended by `DoReFa` and `PCMNoise`. Weights are column-major: the weight from input `j` to
output `i` is element `j * d_size + i` (rpucuda.cu:668-669).
-/
namespace Aihw.GpuMod

open Aihw.PostUpdate.Modifier (ModType ModPars roundC)

/-- Device memory. -/
abbrev Arr := GpuIo.Arr ℚ

/-- The parameters of `PCMNoise` (src/rpucuda/weight_modifier.h:40-46). -/
structure PcmPars where
  zeroThres : ℚ := 0
  tInference : ℚ := 0
  probReset : ℚ := 0
  probGmax : ℚ := 0
  probRandom : ℚ := 0
  t0 : ℚ := 20

/-- The types that the CPU model does not have, and all others. -/
inductive Kind where
  | base | doReFa | pcm
  deriving DecidableEq

/-- `WeightModifierParameter` (src/rpucuda/weight_modifier.h:27-50). -/
structure GPars where
  base : ModPars
  kind : Kind := .base
  perBatch : Bool := false
  dorefaClip : ℚ := 3 / 5
  pcm : PcmPars := {}

/-- The transcendental functions: `tanhf`, `logf`, `powf`, and `log_sqrt_factor` as a function of the time. -/
structure Fns where
  tanh : ℚ → ℚ
  log : ℚ → ℚ
  pow : ℚ → ℚ → ℚ
  logSqrt : ℚ → ℚ

/-- Random numbers by index of the weight; those of `PCMNoise` in the order in which they are drawn. -/
structure Draws where
  rnd : ℕ → ℚ
  gauss : ℕ → ℚ
  drop : ℕ → ℚ
  reset : ℕ → ℚ
  atGmax : ℕ → ℚ
  side : ℕ → ℚ
  atRandom : ℕ → ℚ
  random : ℕ → ℚ
  prog : ℕ → ℚ
  drift : ℕ → ℚ
  read : ℕ → ℚ

/-- `WeightModifierCuda`: the size the maximizer was built for, `enable_during_test_`, `coeffs_`, `dev_coeffs_`. -/
structure State where
  maxSize : Option ℕ := none
  enableTest : Bool := false
  coeffs : List ℚ := []
  dev : Option (List ℚ) := none

/-- One index in `RPU_WM_KERNEL_LOOP` (weight_modifier_cuda.cu:25-34): what is written to it. -/
def visit (size sizeNB : ℕ) (inPlace : Bool) (body : ℕ → ℚ → ℚ) (weights mem : Arr) (i : ℕ) : Arr :=
  if i < sizeNB then Function.update mem i (body i (if inPlace then mem i else weights i))
  else if i < size ∧ inPlace = false then Function.update mem i (weights i)
  else mem

/-- `RPU_WM_KERNEL_LOOP` (weight_modifier_cuda.cu:13-38) with the threads in some order. -/
def wmLoop (order : List ℕ) (size sizeNB : ℕ) (inPlace : Bool) (body : ℕ → ℚ → ℚ) (weights new : Arr) : Arr :=
  order.foldl (visit size sizeNB inPlace body weights) new

/-- `size_without_bias` (weight_modifier_cuda.cu:17). -/
def sizeNoBias (copyLast : Bool) (size d : ℕ) : ℕ := if copyLast then size - d else size

/-- A kernel as a map over the indices; equal to `wmLoop` for every number of threads and order
(`C42_gpu_loop`). -/
def kernel (size sizeNB : ℕ) (inPlace : Bool) (body : ℕ → ℚ → ℚ) (weights new : Arr) : Arr := fun i =>
  if i < sizeNB then body i (if inPlace then new i else weights i)
  else if i < size ∧ inPlace = false then weights i
  else new i

/-- The first lines of all kernels: `amax = wmax ? *wmax : assumed_wmax`, one if not positive (for instance
weight_modifier_cuda.cu:53-54). -/
def refA (wmax : Option ℚ) (assumed : ℚ) : ℚ :=
  let a := wmax.getD assumed
  if a > 0 then a else 1

/-- weight_modifier_cuda.cu:56-67. -/
def kDiscretize (res a : ℚ) (sto : Bool) (u : ℕ → ℚ) (i : ℕ) (w : ℚ) : ℚ :=
  a * res * roundC (w / a / res + if sto then u i - 1 / 2 else 0)

/-- weight_modifier_cuda.cu:83-102. -/
def kDoReFa (tanh : ℚ → ℚ) (res clip a : ℚ) (sto : Bool) (u : ℕ → ℚ) (i : ℕ) (w : ℚ) : ℚ :=
  res * roundC (tanh w * |clip / tanh a| / res + if sto then u i - 1 / 2 else 0)

/-- weight_modifier_cuda.cu:118-135. -/
def kDiscretizeAdd (res sd a : ℚ) (sto : Bool) (u g : ℕ → ℚ) (i : ℕ) (w : ℚ) : ℚ :=
  a * (res * roundC (w / a / res + if sto then u i - 1 / 2 else 0) + sd * g i)

/-- weight_modifier_cuda.cu:149-158. -/
def kAdd (sd a : ℚ) (g : ℕ → ℚ) (i : ℕ) (w : ℚ) : ℚ := w + a * sd * g i

/-- weight_modifier_cuda.cu:172-183. -/
def kMult (sd a : ℚ) (g : ℕ → ℚ) (i : ℕ) (w : ℚ) : ℚ := w * (1 + sd * a * g i)

/-- The loop of weight_modifier_cuda.cu:210-215: `paw` and `sig` after the coefficients. -/
def polyLoop (aw : ℚ) (cs : List ℚ) (s : ℚ × ℚ) : ℚ × ℚ :=
  cs.foldl (fun (s : ℚ × ℚ) (c : ℚ) => (s.1 * aw, s.2 + c * (s.1 * aw))) s

/-- weight_modifier_cuda.cu:199-217 for more than three coefficients. -/
def sigN (coeffs : List ℚ) (aw : ℚ) : ℚ := (polyLoop aw coeffs.tail (1, coeffs.headD 0)).2

/-- weight_modifier_cuda.cu:256 for up to three coefficients. -/
def sig3 (coeffs : List ℚ) (aw : ℚ) : ℚ :=
  coeffs.getD 0 0 + aw * coeffs.getD 1 0 + aw * aw * coeffs.getD 2 0

/-- `preserve_sign` (weight_modifier_cuda.cu:220-222, 258-260). -/
def keepSign (preserve : Bool) (w out : ℚ) : ℚ :=
  if preserve then (if w < 0 then -|out| else |out|) else out

/-- weight_modifier_cuda.cu:199-222 and 240-260; `sig` is the polynomial. -/
def kProg (preserve : Bool) (sig : ℚ → ℚ) (sd a : ℚ) (g : ℕ → ℚ) (i : ℕ) (w : ℚ) : ℚ :=
  keepSign preserve w (w + a * (sig (|w| / a) * sd) * g i)

/-- weight_modifier_cuda.cu:398-402; in place on the new weights, which are only written if dropped. -/
def kDrop (p : ℚ) (u : ℕ → ℚ) (i : ℕ) (w : ℚ) : ℚ := if u i < p then 0 else w

/-! ### PCM noise -/

/-- weight_modifier_cuda.cu:304-306: limited, scaled, and zero if small. -/
def pcmStart (thres gmax a w : ℚ) : ℚ :=
  let g := max (min w a) (-a) * gmax / a
  if |g| > thres then g else 0

/-- weight_modifier_cuda.cu:310-313. -/
def pcmReset (p u g : ℚ) : ℚ := if p > 0 then (if u < p then 0 else g) else g

/-- weight_modifier_cuda.cu:315-322. -/
def pcmGmax (p gmax u1 u2 g : ℚ) : ℚ :=
  if p > 0 then (if u1 < p then (if u2 > 1 / 2 then g - gmax else g + gmax) else g) else g

/-- weight_modifier_cuda.cu:324-332. -/
def pcmRandom (p gmax u1 u2 g : ℚ) : ℚ :=
  if p > 0 then (if u1 < p then (if g > 0 then u2 * gmax else -(u2 * gmax)) else g) else g

/-- weight_modifier_cuda.cu:310-334: the conductance to be programmed. -/
def pcmTarget (q : PcmPars) (gmax : ℚ) (r : Draws) (i : ℕ) (g : ℚ) : ℚ :=
  let g := pcmReset q.probReset (r.reset i) g
  let g := pcmGmax q.probGmax gmax (r.atGmax i) (r.side i) g
  let g := pcmRandom q.probRandom gmax (r.atRandom i) (r.random i) g
  min (max g (-gmax)) gmax

/-- weight_modifier_cuda.cu:347-363 drift variation of `gProg`. -/
def pcmDrift (f : Fns) (t t0 gmax : ℚ) (xi gProg : ℚ) : ℚ :=
  if t > t0 then
    let rel := max |gProg / gmax| (1 / 1000000)
    let sig := min (max (-(125 / 10000) * f.log rel - 59 / 10000) (8 / 1000)) (45 / 1000)
    gProg * f.pow (t / t0) (-|xi * sig|)
  else gProg

/-- weight_modifier_cuda.cu:366-375 1/f noise. -/
def pcmRead (f : Fns) (scale t gmax : ℚ) (xi gProg gDrift : ℚ) : ℚ :=
  if t > 0 then
    let qs := min (88 / 10000 / max (f.pow |gProg / gmax| (65 / 100)) (1 / 1000)) (2 / 10)
    gDrift + scale * |gDrift| * (qs * f.logSqrt t) * xi
  else gDrift

/-- weight_modifier_cuda.cu:340-344 programming noise (coefficients 263-266). -/
def pcmProg (scale gmax xi g : ℚ) : ℚ :=
  let r := |g / gmax|
  g + scale * (26348 / 100000 + r * (19650 / 10000) + r * r * (-(11731 / 10000))) * xi

/-- weight_modifier_cuda.cu:271-384. -/
def kPcm (f : Fns) (q : PcmPars) (scale gmax a : ℚ) (r : Draws) (i : ℕ) (w : ℚ) : ℚ :=
  let start := pcmStart (q.zeroThres * scale * (26348 / 100000)) gmax a w
  let g := pcmTarget q gmax r i start
  if |g| > 0 then
    let gProg := pcmProg scale gmax (r.prog i) g
    let t := q.tInference + q.t0
    let gFinal := pcmRead f scale t gmax (r.read i) gProg (pcmDrift f t q.t0 gmax (r.drift i) gProg)
    keepSign true start (gFinal / gmax * a)
  else 0

/-! ### apply -/

/-- src/rpucuda/cuda/maximizer.cu:378-392 for absolute values of the first `n` elements, starting with zero. -/
def absMaxTo (n : ℕ) (w : Arr) : ℚ := absMax ((List.range n).map w)

/-- weight_modifier_cuda.cu:422-430: the maximizer is built once. -/
def maximizer (g : GPars) (size d : ℕ) (s : State) : State :=
  if g.base.relToActualWmax = true ∧ ¬(g.kind = .base ∧ g.base.type = .copy) then
    { s with maxSize := some (s.maxSize.getD (sizeNoBias g.base.copyLastColumn size d)) }
  else s

/-- weight_modifier_cuda.cu:422-430: the maximum given to the kernels (`nullptr` for `assumed_wmax`). -/
def maxValue (g : GPars) (size d : ℕ) (s : State) (w : Arr) : Option ℚ :=
  if g.base.relToActualWmax = true ∧ ¬(g.kind = .base ∧ g.base.type = .copy) then
    some (absMaxTo (s.maxSize.getD (sizeNoBias g.base.copyLastColumn size d)) w)
  else none

/-- weight_modifier_cuda.cu:509-516: upload of the coefficients if their number or values changed. -/
def upload (coeffs : List ℚ) (s : State) : State :=
  if coeffs.length ≠ s.coeffs.length ∨ s.dev = none then { s with coeffs := coeffs, dev := some coeffs }
  else if s.coeffs ≠ coeffs then { s with coeffs := coeffs, dev := some coeffs }
  else s

/-- weight_modifier_cuda.cu:499-516, 534-551: state and polynomial; up to three coefficients are passed as numbers. -/
def uploadIf (coeffs : List ℚ) (s : State) : State := if coeffs.length ≤ 3 then s else upload coeffs s

/-- The polynomial the kernel computes, from the given and the uploaded coefficients. -/
def polynomial (coeffs : List ℚ) (s : State) (aw : ℚ) : ℚ :=
  if coeffs.length ≤ 3 then sig3 coeffs aw else sigN (s.dev.getD []) aw

/-- The polynomial types and the scale of their noise (weight_modifier_cuda.cu:495-561). -/
def polyType (p : ModPars) : Bool :=
  decide ((p.type = .poly ∨ p.type = .progNoise) ∧ p.stdDev > 0 ∧ 0 < p.coeffs.length)

/-- weight_modifier_cuda.cu:449-586, the modelled types of the CPU: the kernel, if any is started. -/
def baseBody (p : ModPars) (s : State) (a : ℚ) (r : Draws) : Option (ℕ → ℚ → ℚ) :=
  match p.type with
  | .discretize => if p.res > 0 then some (kDiscretize p.res a p.stoRound r.rnd) else none
  | .multNormal => if p.stdDev > 0 then some (kMult p.stdDev a r.gauss) else none
  | .addNormal => if p.stdDev > 0 then some (kAdd p.stdDev a r.gauss) else none
  | .poly =>
    if p.stdDev > 0 ∧ 0 < p.coeffs.length then some (kProg false (polynomial p.coeffs s) p.stdDev a r.gauss) else none
  | .progNoise =>
    if p.stdDev > 0 ∧ 0 < p.coeffs.length then
      some (kProg true (polynomial p.coeffs s) (p.stdDev / p.gMax) a r.gauss)
    else none
  | .discretizeAddNormal =>
    if p.res > 0 ∨ p.stdDev > 0 then some (kDiscretizeAdd p.res p.stdDev a p.stoRound r.rnd r.gauss) else none
  | .none | .copy | .dropConnect => none

/-- weight_modifier_cuda.cu:439-595: the kernel, if any is started. -/
def body (f : Fns) (g : GPars) (s : State) (a : ℚ) (r : Draws) : Option (ℕ → ℚ → ℚ) :=
  match g.kind with
  | .base => baseBody g.base s a r
  | .doReFa => if g.base.res > 0 then some (kDoReFa f.tanh g.base.res g.dorefaClip a g.base.stoRound r.rnd) else none
  | .pcm => some (kPcm f g.pcm g.base.stdDev g.base.gMax a r)

/-- The combination in which the kernel divides by a resolution of zero: all results are not numbers. -/
def dividesByZero (g : GPars) : Bool :=
  decide (g.kind = .base ∧ g.base.type = .discretizeAddNormal ∧ g.base.res = 0 ∧ g.base.stdDev > 0)

/-- weight_modifier_cuda.cu:432-436, 440-444 and 593-594: what ends in an error. -/
def refusal (g : GPars) (inPlace : Bool) : Option PyErr :=
  if ¬(g.kind = .base ∧ g.base.type = .copy) ∧ g.perBatch = true then some .runtimeError
  else if g.kind = .base ∧ g.base.type = .copy ∧ inPlace = true then some .runtimeError
  else if g.kind = .base ∧ g.base.type = .none then some .runtimeError
  else none

/-- weight_modifier_cuda.cu:449-600: the kernel, or a copy if no kernel was started. -/
def launched (size nb : ℕ) (inPlace : Bool) (k : Option (ℕ → ℚ → ℚ)) (w new : Arr) : Arr :=
  match k with
  | some b => kernel size nb inPlace b w new
  | none => if inPlace then new else GpuIo.mapTo size (fun _ v => v) w new

/-- weight_modifier_cuda.cu:597-612: copy if no kernel was started, then drop connections. -/
def finish (g : GPars) (size d : ℕ) (inPlace : Bool) (r : Draws) (k : Option (ℕ → ℚ → ℚ)) (w new : Arr) :
    Except PyErr Arr :=
  let nb := sizeNoBias g.base.copyLastColumn size d
  let new := launched size nb inPlace k w new
  if g.base.pdrop > 0 then
    if inPlace then .error .runtimeError
    else .ok (kernel size nb true (kDrop g.base.pdrop r.drop) new new)
  else .ok new

/-- The state after the start of `apply` (weight_modifier_cuda.cu:419-430 and the uploads). -/
def prepare (g : GPars) (size d : ℕ) (s : State) : State :=
  let s := maximizer g size d { s with enableTest := g.base.enableDuringTest }
  if g.kind = .base ∧ polyType g.base = true then uploadIf g.base.coeffs s else s

/-- weight_modifier_cuda.cu:411-613 `apply` (state and new weights). If a parameter is refused the state has
changed up to there; a division by zero is an explicit error. -/
def apply (f : Fns) (g : GPars) (size d : ℕ) (inPlace : Bool) (r : Draws) (s : State) (w new : Arr) :
    State × Except PyErr Arr :=
  match refusal g inPlace with
  | some e => (maximizer g size d { s with enableTest := g.base.enableDuringTest }, .error e)
  | none =>
    (prepare g size d s,
      if dividesByZero g then .error .nanInf
      else finish g size d inPlace r
        (body f g (prepare g size d s) (refA (maxValue g size d s w) g.base.assumedWmax) r) w new)

/-! ## Tiles: evaluation, copies and checkpoints -/

/-- A tile of either kind as far as forward passes are concerned: weights, modified weights (if ever computed), and
the modifier's `enable_during_test_`. Weights are of any type `W`. -/
structure Tile (W : Type) where
  w : W
  fb : Option W := none
  enableTest : Bool := false

/-- What `dumpExtra` writes about modified weights. -/
structure Extra (W : Type) where
  fb : Option W
  enableTest : Bool

variable {W : Type}

/-- rpu.cpp:1483-1487 and rpucuda.cu:819-823. -/
def used (t : Tile W) (isTest : Bool) : W :=
  match t.fb with
  | some v => if !isTest || t.enableTest then v else t.w
  | none => t.w

/-- rpu.cpp:1749-1758, rpucuda.cu:826-839: `v` are the new modified weights. -/
def modify (enable : Bool) (v : W) (t : Tile W) : Tile W := { t with fb := some v, enableTest := enable }

/-- Copy constructors, rpu.cpp:312-318 and rpucuda.cu:114-126: the weights are copied, the modifier is new. -/
def copyTile (t : Tile W) : Tile W := { t with enableTest := false }

/-- rpucuda.cu:66-81 `RPUCudaSimple` from `RPUSimple`: only the weights are copied. -/
def toCuda (t : Tile W) : Tile W := { w := t.w }

/-- rpu.cpp:415-419, rpucuda.cu:214-218. -/
def dumpTile (t : Tile W) : Extra W := { fb := t.fb, enableTest := t.enableTest }

/-- rpu.cpp:457-467: the modified weights are loaded if there are any; the state of the modifier is not. -/
def loadCpu (e : Extra W) (t : Tile W) : Tile W :=
  match e.fb with
  | some v => { t with fb := some v, enableTest := if t.fb = none then false else t.enableTest }
  | none => t

/-- rpucuda.cu:245-256: the modified weights are loaded, and with them the state of the modifier; an empty array in the
state removes them (src/rpucuda/cuda/cuda_util.cu:81-99, 136-147). -/
def loadGpu (e : Extra W) (t : Tile W) : Tile W :=
  match e.fb with
  | some v => { t with fb := some v, enableTest := e.enableTest }
  | none => { t with fb := none }

end Aihw.GpuMod
