import Verif.Common

/-!
# Model of the digital periphery of an analog tile

`TileWithPeriphery` (src/aihwkit/simulator/tiles/periphery.py:57-1415), the weight layout helpers of
`SimulatorTileWrapper` (src/aihwkit/simulator/tiles/base.py:581-595, 824-861, 892-899) and the module
level forward (src/aihwkit/simulator/tiles/analog.py:214-232; identical in floating_point.py:133-147,
inference.py:418-433).

The simulator tile (`self.tile`, C++ or torch) is the *ideal* device: it stores weights (clipped to a
symmetric bound `devBound` if there is one, as the pulsed C++ devices do on `set_weights`), its forward
is the exact matrix product and its update the exact rank-one SGD update.  CUDA paths, tensor devices
and dtypes, `in_trans`/`out_trans`, quantized periphery (`periph_quant`) and the output-bound gradient
mask are not modelled here.  Scale tensors are values here; sharing is modelled in `Alias.lean`.
One sample `x` stands for a batch (the only operation that looks at a whole batch, `values.std()`, is an
argument).
-/
namespace Aihw.Periphery

/-- `MappingParameter` (src/aihwkit/simulator/parameters/mapping.py), the fields read here. -/
structure MappingPars where
  omega : Option ℚ := some 0
  columnwise : Bool := false
  learnOutScaling : Bool := false
  outScalingColumnwise : Bool := false
  lrCompensation : Bool := false

/-- `InputRangeParameter` (src/aihwkit/simulator/parameters/pre_post.py), the fields read here. -/
structure IRPars where
  initValue : ℚ := 3
  initFromData : Nat := 100
  initStdAlpha : ℚ := 3

/-- Static configuration of a tile. `mapping = none`: the RPU config has no `mapping` attribute.
`inputRange = none`: input range not enabled. `devBound`: weight bound of the device. -/
structure Cfg where
  outSize : Nat
  inSize : Nat
  analogBias : Bool := false
  digitalBias : Bool := false
  mapping : Option MappingPars := some {}
  inputRange : Option IRPars := none
  devBound : Option ℚ := none

/-- Mutable state of a tile. `w` are the weights inside the simulator tile (`[out, in (+1)]`),
`devLr` the learning rate of the simulator tile. -/
structure Tile where
  cfg : Cfg
  w : Mat
  bias : Vec
  mappingScales : Option Vec
  mappingLrScale : ℚ
  learned : Option Vec
  inputRange : Option ℚ
  irIdx : Nat
  reference : Option Mat
  devLr : ℚ

/-- A method of the tile: may raise, and leaves a (possibly partially updated) tile. -/
def Op (α : Type) := Tile → Except PyErr α × Tile

namespace Op
def pure {α : Type} (a : α) : Op α := fun t => (.ok a, t)
def bind {α β : Type} (m : Op α) (f : α → Op β) : Op β := fun t =>
  match m t with
  | (.ok a, t') => f a t'
  | (.error e, t') => (.error e, t')
def throw {α : Type} (e : PyErr) : Op α := fun t => (.error e, t)
def get : Op Tile := fun t => (.ok t, t)
def modify (f : Tile → Tile) : Op Unit := fun t => (.ok (), f t)
def lift {α : Type} (e : Except PyErr α) : Op α := fun t => (e, t)
end Op

instance : Monad Op where
  pure := Op.pure
  bind := Op.bind

/-! ## Tensor helpers -/

/-- torch broadcasting product of two vectors. -/
def bmul (a s : Vec) : Except PyErr Vec :=
  if a.length = s.length then .ok (List.zipWith (· * ·) a s)
  else match s, a with
    | [c], _ => .ok (a.map (· * c))
    | _, [x] => .ok (s.map (x * ·))
    | _, _ => .error .runtimeError

/-- `weight * alpha.view(-1, 1)`: row `i` times `alpha[i]` (broadcast if `alpha` has length 1). -/
def rowScale (w : Mat) (s : Vec) : Except PyErr Mat :=
  if w.length = s.length then .ok (List.zipWith (fun r c => r.map (· * c)) w s)
  else match s, w with
    | [c], _ => .ok (w.map fun r => r.map (· * c))
    | _, [r] => .ok (s.map fun c => r.map (· * c))
    | _, _ => .error .runtimeError

/-- `weight.reshape([out, in])`; simplification: only a tensor that already has this shape is accepted,
any other shape is treated as the `RuntimeError` of a size mismatch. -/
def reshape (out inn : Nat) (w : Mat) : Except PyErr Mat :=
  if w.length = out ∧ w.all (fun r => r.length == inn) then .ok w else .error .runtimeError

/-- base.py:824-861 `_combine_weights`. -/
def combineWeights (c : Cfg) (w : Mat) (b : Option Vec) : Except PyErr Mat := do
  let w ← reshape c.outSize c.inSize w
  if c.analogBias then
    match b with
    | none => .error .valueError
    | some b =>
      if b.length = w.length then .ok (List.zipWith (fun r x => r ++ [x]) w b)
      else .error .runtimeError
  else .ok w

/-- base.py:892-899 `_separate_weights` (`[:, :-1]` and `[:, -1]`). -/
def separateWeights (c : Cfg) (w : Mat) : Mat × Option Vec :=
  if c.analogBias then (w.map List.dropLast, some (w.map fun r => r.getLastD 0)) else (w, none)

/-! ## Scales -/

/-- Argument of `set_scales` / `set_mapping_scales`: `None`, a python float, or a tensor. -/
inductive ScaleArg where
  | none | float (q : ℚ) | tensor (v : Vec)

/-- `mapping_scales.mean().item()`. -/
def mean (v : Vec) : ℚ := v.sum / v.length

/-- periphery.py:522-530: the tensor stored by `set_mapping_scales` over the old one (the case `None` is
handled before).  A float only initialises; a one-element tensor is written in place over all old
entries. -/
def assignScales (a : ScaleArg) (old : Option Vec) : Option Vec :=
  match a, old with
  | .float q, .none => some [q]
  | .float _, some old => some old
  | .tensor v, some old => if v.length = 1 then some (old.map fun _ => v.headD 0) else some v
  | .tensor v, .none => some v
  | .none, s => s

/-- periphery.py:510-534 `set_mapping_scales`.  The last statement is python float division. -/
def setMappingScales (a : ScaleArg) : Op Unit := do
  let t ← Op.get
  match t.cfg.mapping, a with
  | .none, _ => Op.modify fun t => { t with mappingScales := .none }
  | _, .none => Op.modify fun t => { t with mappingScales := .none }
  | some m, a =>
    let new := assignScales a t.mappingScales
    Op.modify fun t => { t with mappingScales := new }
    if m.lrCompensation then
      let mu := mean (new.getD [])
      if mu = 0 then Op.throw .zeroDivision
      else Op.modify fun t => { t with mappingLrScale := 1 / mu }

/-- periphery.py:757-783 `set_learned_out_scales` (`[:] = as_tensor(alpha).view(-1)`). -/
def setLearnedOutScales (a : Vec) : Op Unit := do
  let t ← Op.get
  match t.learned with
  | .none => pure ()
  | some old =>
    if a.length = 1 then Op.modify fun t => { t with learned := some (old.map fun _ => a.headD 0) }
    else if a.length = old.length then Op.modify fun t => { t with learned := some a }
    else Op.throw .runtimeError

/-- periphery.py:688-699 `set_scales`. -/
def setScales (a : ScaleArg) : Op Unit := do
  setMappingScales a
  setLearnedOutScales [1]

/-- periphery.py:701-716 `get_scales`. -/
def getScales (t : Tile) : Except PyErr (Option Vec) :=
  match t.mappingScales, t.learned with
  | .none, .none => .ok .none
  | .none, some l => .ok (some l)
  | some m, .none => .ok (some m)
  | some m, some l => (bmul m l).map some

/-- periphery.py:477-479: `omega = weight_scaling_omega` or the configured one if `None`. -/
def omegaOf (m : MappingPars) (arg : Option ℚ) : Option ℚ :=
  match arg with
  | some o => some o
  | .none => m.omega

/-- periphery.py:436-496 `apply_weight_scaling`.  `torch.max` of an empty tensor raises; sizes are
assumed positive (`absMax [] = 0` here). -/
def applyWeightScaling (w : Mat) (omegaArg : Option ℚ) : Op Mat := do
  let t ← Op.get
  match t.cfg.mapping with
  | .none => pure w
  | some m =>
    match omegaOf m omegaArg with
    | .none => pure w
    | some o =>
      if o > 0 then
        let fix : ℚ → ℚ := fun a => if a = 0 then 1 else a
        if m.columnwise then
          let alpha := w.map fun r => fix (absMax r / o)
          setScales (.tensor alpha)
          pure (List.zipWith (fun r a => r.map (· / a)) w alpha)
        else
          let a := fix (absMax (w.map absMax) / o)
          setScales (.tensor [a])
          pure (w.map fun r => r.map (· / a))
      else pure w

/-- `self.tile.set_weights(w)`: the device clips to its weight bound (see header). -/
def devWrite (c : Cfg) (w : Mat) : Mat :=
  match c.devBound with
  | .none => w
  | some b => w.map fun r => r.map (clamp (-b) b)

/-- periphery.py:110-180 `set_weights` (non-CUDA branch, `realistic=False`). -/
def setWeights (w : Mat) (b : Option Vec) (scaling : Bool := true) (omega : Option ℚ := none) :
    Op Unit := do
  Op.modify fun t => { t with reference := .none }
  let t ← Op.get
  let b ← (match b with
    | .none => pure .none
    | some v =>
      if t.cfg.digitalBias then
        if v.length = t.cfg.outSize then do
          Op.modify fun t => { t with bias := v }
          pure .none
        else if v.length = 1 then do
          Op.modify fun t => { t with bias := List.replicate t.cfg.outSize (v.headD 0) }
          pure .none
        else Op.throw .runtimeError
      else pure (some v) : Op (Option Vec))
  let cw ← Op.lift (combineWeights t.cfg w b)
  let cw ← (if scaling then applyWeightScaling cw omega else pure cw)
  Op.modify fun t => { t with w := devWrite t.cfg cw }

/-- periphery.py:182-242 `get_weights` (`realistic=False`). -/
def getWeights (t : Tile) (scaling : Bool := true) : Except PyErr (Mat × Option Vec) := do
  let (w, b) := separateWeights t.cfg t.w
  let b := if t.cfg.digitalBias then some t.bias else b
  if !scaling then return (w, b)
  match ← getScales t with
  | .none => return (w, b)
  | some a =>
    let w ← rowScale w a
    if t.cfg.analogBias then
      match b with
      | some b => return (w, some (← bmul b a))
      | .none => return (w, .none)
    else return (w, b)

/-- periphery.py:306-338 `remap_weights`. -/
def remapWeights (omega : Option ℚ := some 1) : Op Unit := do
  let t ← Op.get
  let (w, b) ← Op.lift (getWeights t true)
  setWeights w b true omega

/-! ## Construction -/

/-- periphery.py:73-108 `__init__` with init_learned_out_scales (729-755), init_mapping_scales
(536-562; the column-wise branch computes scales but never stores them) and init_input_processing
(564-615).  The simulator tile starts with zero weights and learning rate 0 (simplification). -/
def init (c : Cfg) : Tile where
  cfg := c
  w := List.replicate c.outSize (List.replicate (c.inSize + if c.analogBias then 1 else 0) 0)
  bias := if c.digitalBias then List.replicate c.outSize 0 else []
  mappingScales := match c.mapping with
    | .none => .none
    | some m => match m.omega with
      | .none => .none
      | some o => if o ≠ 0 ∧ m.columnwise = false then some [1] else .none
  mappingLrScale := 1
  learned := match c.mapping with
    | .none => .none
    | some m =>
      if m.learnOutScaling then
        some (List.replicate (if m.outScalingColumnwise then c.outSize else 1) 1)
      else .none
  inputRange := c.inputRange.map (·.initValue)
  irIdx := 0
  reference := .none
  devLr := 0

/-! ## Input range -/

/-- periphery.py:667-686 `set_input_range`. -/
def setInputRange (v : ℚ) : Op Unit := do
  let t ← Op.get
  match t.inputRange with
  | .none => Op.throw .configError
  | some _ => Op.modify fun t => { t with inputRange := some |v| }

/-- periphery.py:817-828: the range update of `apply_input_range`, as a pure function: `p` the input range
parameters, `std` the standard deviation of the batch (`values.std()`, any non-negative number). -/
def irUpdate (p : IRPars) (std : ℚ) (t : Tile) : Tile :=
  if t.irIdx < p.initFromData then
    let t := if std > 0 then
        { t with
          inputRange := t.inputRange.map fun r => (r * t.irIdx + p.initStdAlpha * std) / (t.irIdx + 1)
          irIdx := t.irIdx + 1 }
      else t
    { t with inputRange := t.inputRange.map (|·|) }
  else t

/-- periphery.py:803-834 `apply_input_range` on one sample of a batch with standard deviation `std`. -/
def applyInputRange (x : Vec) (std : ℚ) (fromData : Bool) : Op Vec := do
  let t ← Op.get
  match t.inputRange, t.cfg.inputRange with
  | some _, some p =>
    Op.modify fun t => if fromData then irUpdate p std t else t
    let t ← Op.get
    let r := t.inputRange.getD 0
    pure (x.map (clamp (-|r|) |r|))
  | _, _ => pure x

/-! ## Forward, backward, update -/

/-- periphery.py:836-856 `pre_forward`; an input range of exactly 0 divides by zero. -/
def preForward (x : Vec) (std : ℚ) (isTest : Bool) : Op Vec := do
  let t ← Op.get
  match t.inputRange with
  | .none => pure x
  | some _ =>
    let x ← applyInputRange x std (!isTest)
    let t ← Op.get
    let r := t.inputRange.getD 0
    if r = 0 then Op.throw .nanInf else pure (x.map (· / r))

/-- The ideal crossbar: `self.tile.forward(x, self.analog_bias, …)`; with an analog bias the input is
extended by a 1 (src/rpucuda/rpu.cpp:640-648). -/
def devForward (t : Tile) (x : Vec) : Except PyErr Vec :=
  if x.length = t.cfg.inSize then .ok (matVec t.w (if t.cfg.analogBias then x ++ [1] else x))
  else .error .runtimeError

/-- periphery.py:858-901 `post_forward` without quantized periphery. -/
def postForward (t : Tile) (y : Vec) : Except PyErr Vec :=
  match t.inputRange, t.mappingScales with
  | .none, .none => .ok y
  | some r, .none => .ok (y.map (· * r))
  | .none, some m => bmul y m
  | some r, some m => bmul y (m.map (r * ·))

/-- periphery.py:1032-1066 `joint_forward`. -/
def jointForward (x : Vec) (std : ℚ) (isTest : Bool) : Op Vec := do
  let x ← preForward x std isTest
  let t ← Op.get
  let y ← Op.lift (devForward t x)
  Op.lift (postForward t y)

/-- periphery.py:785-801 `apply_out_scaling`. -/
def applyOutScaling (t : Tile) (y : Vec) : Except PyErr Vec :=
  match t.learned with
  | .none => .ok y
  | some l => bmul y l

/-- analog.py:214-232 module `forward`: learned out scales, then digital bias. -/
def forward (x : Vec) (std : ℚ) (isTest : Bool) : Op Vec := do
  let y ← jointForward x std isTest
  let t ← Op.get
  let y ← Op.lift (applyOutScaling t y)
  pure (if t.cfg.digitalBias then vadd y t.bias else y)

/-- Column `j` of a matrix. -/
def col (w : Mat) (j : Nat) : Vec := w.map fun r => r.getD j 0

/-- Ideal `self.tile.backward(d, self.analog_bias, …)`: `Wᵀ d` without the bias column. -/
def devBackward (t : Tile) (d : Vec) : Vec :=
  (List.range t.cfg.inSize).map fun j => dot (col t.w j) d

/-- periphery.py:1068-1168 `pre_backward`, `backward`, `post_backward` (the returned tensor; the
gradient of the input range is not modelled). -/
def backward (t : Tile) (d : Vec) : Except PyErr Vec := do
  let d ← (match t.mappingScales with
    | .none => .ok d
    | some m => bmul d m : Except PyErr Vec)
  return devBackward t d

/-- Ideal rank-one update of the device: `w_ij ← w_ij - lr * d_i * x_j`. -/
def outerUpdate (w : Mat) (lr : ℚ) (d x : Vec) : Mat :=
  List.zipWith (fun r di => List.zipWith (fun wij xj => wij - lr * di * xj) r x) w d

/-- torch broadcasting quotient; any zero divisor gives NaN/inf. -/
def bdiv (a s : Vec) : Except PyErr Vec :=
  if s.any (· = 0) then .error .nanInf
  else if a.length = s.length then .ok (List.zipWith (· / ·) a s)
  else match s, a with
    | [c], _ => .ok (a.map (· / c))
    | _, [x] => .ok (s.map (x / ·))
    | _, _ => .error .runtimeError

/-- periphery.py:1190-1197 of `pre_update`: inputs clipped and divided by the input range. -/
def preUpdateX (x : Vec) : Op Vec := do
  let t ← Op.get
  match t.inputRange with
  | .none => pure x
  | some r =>
    let x ← applyInputRange x 0 false
    if r = 0 then Op.throw .nanInf else pure (x.map (· / r))

/-- periphery.py:1198-1205 of `pre_update`: errors divided by mapping scales times lr compensation. -/
def preUpdateD (t : Tile) (d : Vec) : Except PyErr Vec :=
  match t.mappingScales with
  | .none => .ok d
  | some m => bdiv d (m.map (· * t.mappingLrScale))

/-- periphery.py:1170-1205 `pre_update`. -/
def preUpdate (x d : Vec) : Op (Vec × Vec) := do
  let x ← preUpdateX x
  let t ← Op.get
  let d ← Op.lift (preUpdateD t d)
  pure (x, d)

/-- periphery.py:1207-1227 `update` on the ideal device. -/
def update (x d : Vec) : Op Unit := do
  let (x, d) ← preUpdate x d
  let t ← Op.get
  if x.length = t.cfg.inSize ∧ d.length = t.cfg.outSize then
    Op.modify fun t =>
      { t with w := outerUpdate t.w t.devLr d (if t.cfg.analogBias then x ++ [1] else x) }
  else Op.throw .runtimeError

/-- periphery.py:1396-1407 `set_learning_rate`. -/
def setLearningRate (lr : Option ℚ) : Op Unit :=
  match lr with
  | .none => pure ()
  | some lr => Op.modify fun t => { t with devLr := lr * t.mappingLrScale }

/-- periphery.py:1409-1415 `get_learning_rate` (python float division). -/
def getLearningRate (t : Tile) : Except PyErr ℚ :=
  if t.mappingLrScale = 0 then .error .zeroDivision else .ok (t.devLr / t.mappingLrScale)

/-! ## Histories -/

/-- A call of the public API on a tile. -/
inductive Call where
  | setWeights (w : Mat) (b : Option Vec) (scaling : Bool) (omega : Option ℚ)
  | remapWeights (omega : Option ℚ)
  | setScales (a : ScaleArg)
  | setMappingScales (a : ScaleArg)
  | setLearnedOutScales (a : Vec)
  | setInputRange (v : ℚ)
  | forward (x : Vec) (std : ℚ) (isTest : Bool)
  | update (x d : Vec)
  | setLearningRate (lr : Option ℚ)

/-- Effect of a call on the tile (an exception is caught by the caller; the partial effect stays). -/
def step (t : Tile) : Call → Tile
  | .setWeights w b s o => (setWeights w b s o t).2
  | .remapWeights o => (remapWeights o t).2
  | .setScales a => (setScales a t).2
  | .setMappingScales a => (setMappingScales a t).2
  | .setLearnedOutScales a => (setLearnedOutScales a t).2
  | .setInputRange v => (setInputRange v t).2
  | .forward x s e => (forward x s e t).2
  | .update x d => (update x d t).2
  | .setLearningRate lr => (setLearningRate lr t).2

/-- A freshly constructed tile after any sequence of calls. -/
def run (c : Cfg) (calls : List Call) : Tile := calls.foldl step (init c)

end Aihw.Periphery

namespace Aihw.Periphery

/-! ## Gradients -/

/-- Gradient of a module forward (analog.py:214-232) w.r.t. its input for an output gradient `d`: torch
autograd of `y * out_scaling_alpha + bias` (trusted: multiplies by `out_scaling_alpha`) followed by
`backward` (called by `AnalogFunction.backward`, src/aihwkit/simulator/tiles/functions.py:60-88). -/
def moduleBackward (t : Tile) (d : Vec) : Except PyErr Vec := do
  backward t (← applyOutScaling t d)

/-- Gradient fields of `InputRangeParameter` (src/aihwkit/simulator/parameters/pre_post.py). -/
structure IRGradPars where
  decay : ℚ := 1 / 1000
  inputMinPercentage : ℚ := 95 / 100
  gradientRelative : Bool := true
  gradientScale : ℚ := 1
  manageOutputClipping : Bool := false
  outputMinPercentage : ℚ := 95 / 100

/-- periphery.py:1119-1120: the sum over all elements of `clamp(upper * d, max=0)` minus
`clamp(lower * d, min=0)`. `xd`: the pairs (saved input value, gradient of that input value). -/
def irClipGrad (r : ℚ) (xd : List (ℚ × ℚ)) : ℚ :=
  (xd.map fun p => min (if p.1 ≥ r then p.2 else 0) 0).sum -
  (xd.map fun p => max (if p.1 ≤ -r then p.2 else 0) 0).sum

/-- periphery.py:1122-1136: relative gradient and the output clipping term. `masked`: number of outputs with
masked gradient if the output bound is handled (`zero_grad_msk`); it is divided by the number of elements of the
*input* gradient. -/
def irGradBase (p : IRGradPars) (r : ℚ) (xd : List (ℚ × ℚ)) (masked : Option Nat) : ℚ :=
  let g := irClipGrad r xd
  let g := if p.gradientRelative then g * r * p.gradientScale else g
  match masked with
  | some k =>
    if p.manageOutputClipping then
      let pct : ℚ := 1 - k / xd.length
      g - (1 - pct) * r * (if pct < p.outputMinPercentage then 1 else 0)
    else g
  | none => g

/-- periphery.py:1104-1150: gradient added to `input_range.grad` in `post_backward`. -/
def irGrad (p : IRGradPars) (r : ℚ) (xd : List (ℚ × ℚ)) (masked : Option Nat) : ℚ :=
  let g := irGradBase p r xd masked
  if p.decay > 0 then
    let pct : ℚ := (xd.countP fun q => decide (|q.1| < r)) / xd.length
    g + p.decay * r * (if pct > p.inputMinPercentage then 1 else 0)
  else g

end Aihw.Periphery
