import Verif.Periphery.Model

/-!
# Model of the post-update weight remapping

`post_update_step` of the inference tiles: the torch tile
(src/aihwkit/simulator/tiles/inference_torch.py:236-247 with torch_tile.py:104-134) and the RPUCuda tile
(src/aihwkit/simulator/tiles/inference.py:311-361 with src/rpucuda/weight_remapper.cpp:21-128 and the binding
src/aihwkit/simulator/rpu_base_src/rpu_base_tiles.cpp:331-342).  Clipping is in `Clip.lean`.
Not modelled: remap types that Python cannot select (`ChannelwiseNorm`, `ChannelwiseAsymmetric`) and
stochastic weight averaging.
-/
namespace Aihw.PostUpdate
open Aihw.Periphery

/-- `WeightRemapType` (src/aihwkit/simulator/parameters/enums.py), without `NONE`. -/
inductive RemapType where
  | layerwise | channelwise
  deriving DecidableEq

/-- A remapper: current weights and scales to new weights and scales. -/
abbrev Remapper := Mat → Vec → Except PyErr (Mat × Vec)

/-- torch_tile.py:104-134 `remap_weights`: a zero maximum gives 0/0. -/
def torchRemap (ty : RemapType) : Remapper := fun w scales => do
  let sw ← rowScale w scales
  match ty with
  | .layerwise =>
    let m := absMax (sw.map absMax)
    if m = 0 then .error .nanInf else .ok (sw.map fun r => r.map (· / m), [m])
  | .channelwise =>
    let ms := sw.map absMax
    if ms.any (· = 0) then .error .nanInf
    else .ok (List.zipWith (fun r m => r.map (· / m)) sw ms, ms)

/-- `WeightRemapParameter` (src/aihwkit/simulator/parameters/inference.py). -/
structure RemapPars where
  type : RemapType
  remappedWmax : ℚ := 1
  maxScaleRange : ℚ := 0
  maxScaleRef : ℚ := 0

/-- weight_remapper.cpp:26-52 `LayerwiseSymmetric`. -/
def cppLayer (wmax : ℚ) (w : Mat) (s : Vec) : Mat × Vec :=
  let amax := absMax (w.map absMax) / wmax
  if amax > 0 then (w.map fun r => r.map (· / amax), s.map (· * amax)) else (w, s)

/-- `amax > 0 ? amax : 1`. -/
def orOne (a : ℚ) : ℚ := if a > 0 then a else 1

/-- weight_remapper.cpp:73-91 `ChannelwiseSymmetric` without a scale range. -/
def cppChannel (wmax : ℚ) (w : Mat) (s : Vec) : Mat × Vec :=
  let ms := w.map fun r => orOne (absMax r / wmax)
  (List.zipWith (fun r m => r.map (· / m)) w ms, List.zipWith (· * ·) s ms)

/-- weight_remapper.cpp:101-112: the smallest scale, not below 0, raised to `max_scale_ref` if that is set. The
float maximum the loop starts with is represented by the first scale (`d_size ≥ 1`). -/
def minScale (ref : ℚ) (s : Vec) : ℚ :=
  let m := max (s.foldl min (s.headD 0)) 0
  if m > 0 ∧ ref ≠ 0 then max m ref else m

/-- weight_remapper.cpp:114-126: new scale of one row. -/
def boundedScale (range mn : ℚ) (amax old : ℚ) : ℚ :=
  let ns := if amax > 0 then amax * old else old
  if mn > 0 then (if ns / mn > range then mn * range else ns) else ns

/-- weight_remapper.cpp:92-133 `ChannelwiseSymmetric` with a scale range: `weights * old / new`. -/
def cppBounded (range ref : ℚ) (w : Mat) (s : Vec) : Except PyErr (Mat × Vec) :=
  let mn := minScale ref s
  let ns := List.zipWith (fun r o => boundedScale range mn (absMax r) o) w s
  if ns.any (· = 0) then .error .nanInf
  else .ok (List.zipWith (fun r p => r.map fun x => x * p.1 / p.2) w (List.zip s ns), ns)

/-- rpu_base_tiles.cpp:331-342 and weight_remapper.cpp:21-128. `remapped_wmax = 0` would divide by zero. -/
def cppRemap (p : RemapPars) : Remapper := fun w s =>
  if s.length ≠ w.length then .error .runtimeError
  else match p.type with
    | .layerwise => if p.remappedWmax = 0 then .error .nanInf else .ok (cppLayer p.remappedWmax w s)
    | .channelwise =>
      if p.maxScaleRange ≤ 0 then
        if p.remappedWmax = 0 then .error .nanInf else .ok (cppChannel p.remappedWmax w s)
      else if p.remappedWmax ≠ 1 then .error .runtimeError
      else cppBounded p.maxScaleRange p.maxScaleRef w s

/-- inference_torch.py:243-247, inference.py:339-348: `scales = get_scales(); scales = tile.remap_weights(.., scales);
set_scales(scales)`.  `None` scales fail in both back ends (`None.view`, argument type). -/
def postRemap (R : Remapper) : Op Unit := do
  let t ← Op.get
  match ← Op.lift (getScales t) with
  | none => Op.throw .attributeError
  | some s =>
    let (w', s') ← Op.lift (R t.w s)
    Op.modify fun t => { t with w := w' }
    setScales (.tensor s')

/-- inference.py:83-103 `init_mapping_scales` of an inference tile with remapping enabled: after the base class
initialisation the mapping scales are set to ones of the output size. -/
def initScales (c : Cfg) : Op Unit := setMappingScales (.tensor (List.replicate c.outSize 1))

/-- A step of a training history: an API call or a post-update remap. -/
inductive Step where
  | call (k : Call)
  | torchRemap (ty : RemapType)
  | cppRemap (p : RemapPars)

/-- Effect of a step.  A remap that raises (or produces NaN) ends the history. -/
def Step.exec (t : Tile) : Step → Except PyErr Tile
  | .call k => .ok (step t k)
  | .torchRemap ty =>
    match postRemap (PostUpdate.torchRemap ty) t with
    | (.ok _, t') => .ok t'
    | (.error e, _) => .error e
  | .cppRemap p =>
    match postRemap (PostUpdate.cppRemap p) t with
    | (.ok _, t') => .ok t'
    | (.error e, _) => .error e

/-- An inference tile with remapping, freshly constructed, after a history of steps. -/
def runSteps (c : Cfg) (steps : List Step) : Except PyErr Tile :=
  steps.foldlM Step.exec (initScales c (init c)).2

end Aihw.PostUpdate
