import Verif.Common
import Mathlib.Data.List.GetD

/-!
# Checkpoints: `state_dict` / `load_state_dict` of analog tiles

Models
* `SimulatorTileWrapper.get_analog_state`, `__getstate__`, `__setstate__` (tiles/base.py:627-806),
* `TileModule.__setstate__`, `_state_dict_hook`, `_load_state_dict_pre_hook`,
  `_load_state_dict_post_hook`, `compatible_with`, `replace_with`, `set_load_rpu_config_state`
  (tiles/module.py:60-127, 255-427),
* `AnalogLayerBase.load_state_dict` (nn/modules/base.py:209-275),
* torch's `Module._load_from_state_dict` / `load_state_dict` for parameters and buffers.

The simulator tile (C++ or torch) is an abstract machine `SimOps` with arbitrary behaviour; concrete
device models are plugged in in `State/Device.lean`.  RPU configurations are heap objects, because
the code stores references to them in state dictionaries.

Not modelled: CUDA moves, `map_location`, dtypes, `ignore_analog_state`, legacy key conversion other
than the defaults stated below, the `analog_ctx` tensor value (it is popped before torch sees it).
-/
namespace Aihw.State

/-- `MappingParameter` (simulator/parameters/mapping.py:24-101): the three fields that may differ and
the tuple of all others. -/
structure Mapping where
  omega : ℚ
  columnwise : Bool
  lrComp : Bool
  rest : List ℚ
  deriving DecidableEq

/-- Contents of an RPU configuration object.  `inference` says that it is an instance of
`InferenceRPUConfig`; `body` stands for all remaining fields. -/
structure Cfg where
  cls : String
  inference : Bool
  tileClass : String
  mapping : Option Mapping
  body : Nat
  deriving DecidableEq

/-- A torch tensor: shape and elements in memory order. -/
structure Ten where
  shape : List Nat
  data : List ℚ
  deriving DecidableEq

/-- `RPUConfigBase.compatible_with` (parameters/base.py:54-66) and the override of
`InferenceRPUConfig` (configs/configs.py:256-259). -/
def Cfg.compatibleWith (c : Cfg) (tileClass : String) : Bool :=
  (c.inference && tileClass == "TorchInferenceTile") || tileClass == c.tileClass

/-- `MappingParameter.compatible_with` (parameters/mapping.py:103-125). -/
def Mapping.compatibleWith (self other : Mapping) : Bool := other == self || other.rest == self.rest

/-- A simulator tile with states `σ`, weights `W`, hidden parameters `H`, extra state `E`; every call
that may draw random numbers gets a seed. -/
structure SimOps (σ W H E : Type) where
  create : Cfg → Nat → Nat → Nat → σ
  weights : σ → W
  hidden : σ → H
  names : σ → List String
  lr : σ → Option ℚ
  extra : σ → Option E
  setHidden : H → Nat → σ → Except PyErr σ
  setWeights : W → Nat → σ → Except PyErr σ
  /-- copy into the memory shared between python and the C++ tile; no operation for tiles that do
  not share memory -/
  overwrite : W → σ → σ
  setLr : ℚ → σ → Except PyErr σ
  loadExtra : E → σ → Except PyErr σ

/-- The identity and contents of the analog context that `load_state_dict` replaces
(optim/context.py:115-148): object id, recorded gradient pairs, flags. -/
structure Ctx where
  id : Nat
  records : List (List ℚ × List ℚ)
  indexed : Bool
  torchUpd : Bool

/-- A tile module.  `params` lists the registered parameters and buffers with their value (`none`:
registered as `None`), except `analog_ctx`; `noneAttrs` those attributes among the saved names that
are plain `None` attributes.  `torchTile` marks `TorchInferenceTile`, which does not recreate its
simulator.  `lrScale` is `mapping_lr_scale`, `aux` all other attributes that are not in the state
dictionary (programmed weights, drift parameters, drift baseline, reference weights, image sizes). -/
structure Tile (σ A : Type) where
  cls : String
  cfg : Nat
  sim : σ
  xSize : Nat
  dSize : Nat
  torchTile : Bool
  params : List (String × Option Ten)
  noneAttrs : List String
  lrScale : ℚ
  nonBlocking : Bool
  ctx : Ctx
  loadCfg : Bool
  strictCfg : Bool
  aux : A

/-- The analog state of one tile in a state dictionary (tiles/base.py:37-57, 627-674).  The
configuration is a reference.  `none` for keys that older checkpoints do not have. -/
structure AState (W H E : Type) where
  cfg : Nat
  cls : Option String
  lr : Option (Option ℚ)
  weights : W
  hidden : H
  names : Option (List String)
  extra : Option E
  noneAttrs : List String

/-- The entries of one tile in a state dictionary. -/
structure Entry (W H E : Type) where
  analog : Option (AState W H E)
  vals : List (String × Ten)

/-- The world: configuration heap and the counters for new objects. -/
structure World where
  cfgs : Nat → Cfg
  nextCfg : Nat
  nextCtx : Nat

variable {σ W H E A : Type}

/-- `get_analog_state` (tiles/base.py:627-674). -/
def getAnalogState (S : SimOps σ W H E) (t : Tile σ A) : AState W H E :=
  { cfg := t.cfg, cls := some t.cls, lr := some (S.lr t.sim), weights := S.weights t.sim,
    hidden := S.hidden t.sim, names := some (S.names t.sim), extra := S.extra t.sim,
    noneAttrs := t.noneAttrs }

/-- `state_dict()` of one tile (tiles/module.py:255-277): all parameters and buffers that are not
`None`, plus the analog state. -/
def stateDict (S : SimOps σ W H E) (t : Tile σ A) : Entry W H E :=
  { analog := some (getAnalogState S t),
    vals := t.params.filterMap fun p => p.2.map fun v => (p.1, v) }

/-- `rpu_config.tile_class = ...` (tiles/base.py:726). -/
def World.setTileClass (w : World) (r : Nat) (c : String) : World :=
  { w with cfgs := fun k => if k = r then { w.cfgs k with tileClass := c } else w.cfgs k }

/-- A deep copy of a configuration. -/
def World.copyCfg (w : World) (r : Nat) : World × Nat :=
  ({ w with cfgs := fun k => if k = w.nextCfg then w.cfgs r else w.cfgs k, nextCfg := w.nextCfg + 1 },
    w.nextCfg)

/-- `self.__dict__.update(...)` with attributes that are `None`, followed by the refresh of
`_parameters` and `_buffers` (tiles/base.py:729, module.py:115-124): registered tensors of those
names become `None`. -/
def noneOut (names : List String) (ps : List (String × Option Ten)) :
    List (String × Option Ten) :=
  ps.map fun p => if names.contains p.1 then (p.1, none) else p

/-- The calls on the new simulator tile (tiles/base.py:743-793). `none` for the learning rate key
means the default 0.01, a saved `None` leaves it alone. -/
def restoreSim (S : SimOps σ W H E) (a : AState W H E) (seed : Nat) (s : σ) : Except PyErr σ := do
  let s ← S.setHidden a.hidden seed s
  let s ← S.setWeights a.weights (seed + 1) s
  let s := S.overwrite a.weights s
  let s ← match a.lr with
    | none => S.setLr (1 / 100) s
    | some none => pure s
    | some (some l) => S.setLr l s
  match a.extra with
    | none => pure s
    | some e => S.loadExtra e s

/-- A fresh analog context (tiles/base.py:796, optim/context.py:137-148). -/
def newCtx (w : World) : World × Ctx :=
  ({ w with nextCtx := w.nextCtx + 1 }, ⟨w.nextCtx, [], false, false⟩)

/-- The attribute updates of `__setstate__` before the simulator is touched
(tiles/base.py:700-737): configuration, `None` attributes, new simulator tile. `nb` is the saved
`non_blocking` (absent from state dictionaries: reset to false, lines 715-717). -/
def adopt (S : SimOps σ W H E) (a : AState W H E) (nb : Option Bool) (seed : Nat) (w : World)
    (t : Tile σ A) : Tile σ A :=
  { t with
    cfg := a.cfg, params := noneOut a.noneAttrs t.params, nonBlocking := nb.getD false,
    sim := if t.torchTile then t.sim else S.create (w.cfgs a.cfg) t.xSize t.dSize seed }

/-- `__setstate__` on an existing tile (tiles/base.py:677-806, module.py:106-124).  The result
carries the world and tile also when an exception is raised. -/
def setState (S : SimOps σ W H E) (a : AState W H E) (nb : Option Bool) (seed : Nat) (w : World)
    (t : Tile σ A) : Except PyErr Unit × World × Tile σ A :=
  let cls := a.cls.getD t.cls
  if (w.cfgs t.cfg).compatibleWith cls = false then (.error .tileError, w, t)
  else
    let w1 := w.setTileClass a.cfg (w.cfgs t.cfg).tileClass
    let t1 := adopt S a nb seed w1 t
    let names := a.names.getD []
    if names ≠ [] ∧ S.names t1.sim ≠ names then (.error .tileError, w1, t1)
    else match restoreSim S a (seed + 1) t1.sim with
      | .error e => (.error e, w1, t1)
      | .ok s => (.ok (), (newCtx w1).1, { t1 with sim := s, ctx := (newCtx w1).2 })

/-- `TileModule.compatible_with` (module.py:333-367); `isa a b` is `isinstance` on class names. -/
def compatibleWith (isa : String → String → Bool) (strict : Bool) (own new : Cfg) : Bool :=
  (!strict || isa own.cls new.cls || isa new.cls own.cls) &&
  (match new.mapping, own.mapping with
    | some n, some o => n == o || o.compatibleWith n
    | _, _ => true)

/-- `_load_state_dict_pre_hook` (module.py:391-427).  Returns whether the analog state was missing. -/
def preHook (S : SimOps σ W H E) (isa : String → String → Bool) (e : Entry W H E) (seed : Nat)
    (w : World) (t : Tile σ A) : Except PyErr Bool × World × Tile σ A :=
  match e.analog with
  | none => (.ok true, w, t)
  | some a =>
    if t.loadCfg then
      match setState S a none seed w t with
      | (.ok _, w, t) => (.ok false, w, t)
      | (.error e, w, t) => (.error e, w, t)
    else if compatibleWith isa t.strictCfg (w.cfgs t.cfg) (w.cfgs a.cfg) = false then
      (.error .tileModuleError, w, t)
    else
      match setState S { a with cfg := t.cfg } none seed w t with
      | (.ok _, w, t) => (.ok false, w, t)
      | (.error e, w, t) => (.error e, w, t)

/-- First value of a key. -/
def lookup (k : String) : List (String × Ten) → Option Ten
  | [] => none
  | (k', v) :: l => if k' = k then some v else lookup k l

/-- torch `Module._load_from_state_dict`: a one-dimensional value for a zero-dimensional tensor is
replaced by its first element; the reverse is not done. -/
def squeeze (old new : Ten) : Ten :=
  if old.shape = [] ∧ new.shape.length = 1 then ⟨[], new.data.take 1⟩ else new

/-- torch: `param.copy_(input_param)` for one registered tensor. -/
def loadParam (vals : List (String × Ten)) (p : String × Option Ten) :
    String × Option Ten :=
  match p.2, lookup p.1 vals with
  | some old, some new =>
    if (squeeze old new).shape = old.shape then (p.1, some (squeeze old new)) else p
  | _, _ => p

/-- torch: whether a registered tensor has a shape mismatch (reported in any mode). -/
def shapeBad (vals : List (String × Ten)) (p : String × Option Ten) : Bool :=
  match p.2, lookup p.1 vals with
  | some old, some new => decide ((squeeze old new).shape ≠ old.shape)
  | _, _ => false

/-- torch: registered tensor without entry; `shared_weights` is removed by the post hook
(module.py:316-331). -/
def missing (vals : List (String × Ten)) (p : String × Option Ten) : Bool :=
  match p.2, lookup p.1 vals with
  | some _, none => !(p.1 == "shared_weights")
  | _, _ => false

/-- torch: entry without registered tensor. The analog state and context keys have been popped and so
has `shared_weights` (module.py:409-421) when the analog state is present. -/
def unexpected (params : List (String × Option Ten)) (v : String × Ten) : Bool :=
  !(v.1 == "shared_weights") && !(params.any fun p => p.1 == v.1 && p.2.isSome)

/-- Messages collected by torch: (strict-only problem, problem in any mode). -/
structure Problems where
  keys : Bool
  shapes : Bool

/-- Load one tile: pre hook, then parameters and buffers
(module.py:279-314, torch `Module._load_from_state_dict`). -/
def loadTile (S : SimOps σ W H E) (isa : String → String → Bool) (e : Entry W H E) (seed : Nat)
    (w : World) (t : Tile σ A) : Except PyErr Problems × World × Tile σ A :=
  match preHook S isa e seed w t with
  | (.error er, w, t) => (.error er, w, t)
  | (.ok miss, w, t) =>
    (.ok ⟨miss || t.params.any (missing e.vals) || e.vals.any (unexpected t.params),
        t.params.any (shapeBad e.vals)⟩, w,
      { t with params := t.params.map (loadParam e.vals) })

/-- `set_load_rpu_config_state` (module.py:60-86). -/
def setFlags (lc st : Option Bool) (t : Tile σ A) : Tile σ A :=
  { t with loadCfg := lc.getD t.loadCfg, strictCfg := st.getD t.strictCfg }

/-- The recursion of `load_state_dict` over the tiles of a model, in order: an exception leaves the
remaining tiles untouched. -/
def loadAll (S : SimOps σ W H E) (isa : String → String → Bool) :
    List (Entry W H E) → Nat → World → List (Tile σ A) →
      Except PyErr Problems × World × List (Tile σ A)
  | [], _, w, [] => (.ok ⟨false, false⟩, w, [])
  | _ :: _, _, w, [] => (.ok ⟨true, false⟩, w, [])
  | [], _, w, t :: ts => (.ok ⟨true, false⟩, w, t :: ts)
  | e :: es, seed, w, t :: ts =>
    match loadTile S isa e seed w t with
    | (.error er, w, t) => (.error er, w, t :: ts)
    | (.ok p, w, t) =>
      match loadAll S isa es (seed + 3) w ts with
      | (.error er, w, ts) => (.error er, w, t :: ts)
      | (.ok q, w, ts) => (.ok ⟨p.keys || q.keys, p.shapes || q.shapes⟩, w, t :: ts)

/-- `AnalogLayerBase.load_state_dict` (nn/modules/base.py:209-275) for a model whose tiles are visited
in order; `legacyCtx` says that the dictionary has an empty `analog_ctx` entry (written before
0.9.2), which switches strict mode off. -/
def loadStateDict (S : SimOps σ W H E) (isa : String → String → Bool) (sd : List (Entry W H E))
    (legacyCtx strict : Bool) (lc st : Option Bool) (seed : Nat) (w : World) (ts : List (Tile σ A)) :
    Except PyErr Unit × World × List (Tile σ A) :=
  match loadAll S isa sd seed w (ts.map (setFlags lc st)) with
  | (.error er, w, ts) => (.error er, w, ts)
  | (.ok p, w, ts) =>
    if p.shapes || (p.keys && strict && !legacyCtx) then (.error .runtimeError, w, ts)
    else (.ok (), w, ts)

/-- `replace_with` (module.py:369-388): the full state (all attributes, also the unsaved ones, are
kept) with a deep copy of the given configuration. -/
def replaceWith (S : SimOps σ W H E) (isa : String → String → Bool) (r : Nat) (seed : Nat)
    (w : World) (t : Tile σ A) : Except PyErr Unit × World × Tile σ A :=
  if compatibleWith isa t.strictCfg (w.cfgs t.cfg) (w.cfgs r) = false then
    (.error .tileModuleError, w, t)
  else
    let c := w.copyCfg r
    setState S { getAnalogState S t with cfg := c.2 } (some t.nonBlocking) seed c.1 t

/-- Saving to a file and reading it back: every configuration becomes a fresh copy (one per tile). -/
def pickle : List (Entry W H E) → World → World × List (Entry W H E)
  | [], w => (w, [])
  | e :: es, w =>
    match e.analog with
    | none => ((pickle es w).1, e :: (pickle es w).2)
    | some a =>
      let c := w.copyCfg a.cfg
      let r := pickle es c.1
      (r.1, { e with analog := some { a with cfg := c.2 } } :: r.2)

end Aihw.State
