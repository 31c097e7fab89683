import Verif.Common

/-!
# Which settings a tile uses

Tiles hold a configuration (`tile.rpu_config`), made of parts (`forward`, `modifier`, `device`, ...)
that are mutable Python objects.  Some operations of a tile read the configuration when they run,
some read what was copied when the simulator tile was made, some read parts they kept a reference
to, and some read a cache.  The model follows the references.

Modelled: `SimulatorTileWrapper.__init__`, `__getstate__`, `__setstate__`
(src/aihwkit/simulator/tiles/base.py:306-349, 644-806), `_create_simulator_tile` and
`_recreate_simulator_tile` of the tile classes, `set_config` (torch_tile.py:165-172,
custom.py:137-145), the `forward` methods (inference_torch.py:214-232, custom.py:281-300,
transfer.py:589-606), `InferenceTileWithPeriphery.post_update_step` with its cache
(inference.py:285-350), `TorchInferenceTile.post_update_step` (inference_torch.py:234-245), the
drift read-outs (inference.py:100-165), `TileModule.replace_with` and the loading hook
(module.py:369-427), `deepcopy` of a tile.  The value of a part (all its fields) is one element of
`V`.  Not modelled: the values of weights and hidden parameters, failing calls (state loading that
raises is the subject of C28 and C90), and sharing of one part object between configurations by
the user.  For the tile with IR drop the part `noise` stands for `noise_model.g_converter`, whose
reference the simulator tile keeps.
-/
namespace Aihw.Settings
open Aihw

/-- The parts of a configuration. -/
inductive Part where
  | forward | backward | update | device | clip | remap | modifier | noise | drift | prePost
  | runtime | mapping
  deriving DecidableEq

/-- The kinds of tiles: C++ tiles (`AnalogTile`, `InferenceTile`), `TorchInferenceTile`, the same
with time-dependent IR drop, `CustomTile` and `TorchTransferTile`. -/
inductive Kind where
  | cpp | torch | torchIR | custom | transfer
  deriving DecidableEq

variable {V : Type}

/-- The configuration objects and the part objects, with the next free identities. -/
structure Heap (V : Type) where
  /-- the part objects of a configuration -/
  cfg : ℕ → Part → ℕ
  /-- the content of a part object -/
  val : ℕ → V
  /-- the attribute `tile_class` of a configuration -/
  cls : ℕ → String
  nc : ℕ
  np : ℕ

/-- The content of a part of a configuration. -/
def Heap.read (h : Heap V) (c : ℕ) (p : Part) : V := h.val (h.cfg c p)

/-- `copy.deepcopy` of a configuration (and of whatever refers to part objects in the same call):
every part object `i` is copied to `np + i`, the configuration gets the identity `nc`. -/
def Heap.deepcopy (h : Heap V) (c : ℕ) : Heap V :=
  { cfg := fun d p => if d = h.nc then h.np + h.cfg c p else h.cfg d p
    val := fun i => if i < h.np then h.val i else h.val (i - h.np)
    cls := fun d => if d = h.nc then h.cls c else h.cls d
    nc := h.nc + 1
    np := h.np + h.np }

/-- `config.part.field = ...`: a part object changes in place. -/
def Heap.setPart (h : Heap V) (c : ℕ) (p : Part) (v : V) : Heap V :=
  { h with val := fun i => if i = h.cfg c p then v else h.val i }

/-- `config.part = PartClass(...)`: another part object takes its place. -/
def Heap.assign (h : Heap V) (c : ℕ) (p : Part) (v : V) : Heap V :=
  { h with
    cfg := fun d q => if d = c ∧ q = p then h.np else h.cfg d q
    val := fun i => if i = h.np then v else h.val i
    np := h.np + 1 }

/-- `config.tile_class = ...`. -/
def Heap.setClass (h : Heap V) (c : ℕ) (n : String) : Heap V :=
  { h with cls := fun d => if d = c then n else h.cls d }

/-- The position of a part in a new configuration. -/
def Part.index : Part → ℕ
  | .forward => 0 | .backward => 1 | .update => 2 | .device => 3 | .clip => 4 | .remap => 5
  | .modifier => 6 | .noise => 7 | .drift => 8 | .prePost => 9 | .runtime => 10 | .mapping => 11

/-- The part at a position. -/
def Part.ofIndex : ℕ → Part
  | 0 => .forward | 1 => .backward | 2 => .update | 3 => .device | 4 => .clip | 5 => .remap
  | 6 => .modifier | 7 => .noise | 8 => .drift | 9 => .prePost | 10 => .runtime | _ => .mapping

/-- The user makes a configuration. -/
def Heap.newConfig (h : Heap V) (v : Part → V) (cls : String) : Heap V :=
  { cfg := fun d p => if d = h.nc then h.np + p.index else h.cfg d p
    val := fun i => if i < h.np then h.val i else v (Part.ofIndex (i - h.np))
    cls := fun d => if d = h.nc then cls else h.cls d
    nc := h.nc + 1
    np := h.np + 12 }

/-- A tile: its own configuration (`tile.rpu_config`), what the simulator tile copied when it was
made (the bindings), the part objects the simulator tile refers to, and the cached bindings
(`tile._tmp`). -/
structure Tile (V : Type) where
  kind : Kind
  own : ℕ
  sim : Part → V
  ref : Part → ℕ
  tmp : Part → Option V

/-- How the settings are interpreted: `clip.type`, `remap.type`, `modifier.type` tell whether the
step is done at all (inference.py:307-338), `runtime.on_the_fly_bindings` whether the cache is
used. -/
structure Sem (V : Type) where
  active : Part → V → Bool
  onTheFly : V → Bool

/-- The world: configurations, tiles and state dictionaries (of which only the reference to the
configuration matters). -/
structure World (V : Type) where
  heap : Heap V
  tile : ℕ → Tile V
  nt : ℕ
  saved : ℕ → ℕ
  ns : ℕ

/-- The setting of a tile's own configuration, now. -/
def World.ownNow (w : World V) (t : ℕ) (p : Part) : V := w.heap.read (w.tile t).own p

/-- Makes the simulator tile from a configuration: `_create_simulator_tile` copies settings into
bindings (inference.py:77-78, analog.py:208-209, transfer.py:83-95) and keeps references to parts
(torch_tile.py:61-62, torch_tile_irdrop_t.py:42, custom.py:143-145, transfer.py:80). -/
def Tile.create (x : Tile V) (h : Heap V) (c : ℕ) : Tile V :=
  { x with sim := h.read c, ref := h.cfg c }

/-- `_recreate_simulator_tile` in `__setstate__` (base.py:566-579, 746; inference_torch.py:130-146;
base.py:703 for the transfer tile): the torch tiles and the transfer tile keep their simulator
tile. -/
def Tile.recreate (x : Tile V) (h : Heap V) : Tile V :=
  match x.kind with
  | .cpp => x.create h x.own
  | .custom => x.create h x.own
  | .torch => x
  | .torchIR => x
  | .transfer => x

/-- `self.tile.set_config(self.rpu_config)` (torch_tile.py:165-172; custom.py:137-145). -/
def Tile.setConfig (x : Tile V) (h : Heap V) : Tile V :=
  match x.kind with
  | .torch | .torchIR =>
    { x with ref := fun p =>
        if p = .forward ∨ p = .modifier then h.cfg x.own p else x.ref p }
  | .custom =>
    { x with ref := fun p =>
        if p = .forward ∨ p = .backward ∨ p = .update then h.cfg x.own p else x.ref p }
  | .cpp | .transfer => x

/-- Replaces a tile. -/
def World.put (w : World V) (t : ℕ) (x : Tile V) : World V :=
  { w with tile := fun i => if i = t then x else w.tile i }

/-- The configuration object that a loading tile takes: the one of the state dictionary, or its own
with `load_rpu_config=False` (module.py:416-427). -/
def World.loadedConfig (w : World V) (t s : ℕ) (withConfig : Bool) : ℕ :=
  if withConfig then w.saved s else (w.tile t).own

/-- What the user can do. -/
inductive Op (V : Type) where
  | config (v : Part → V) (cls : String)
  | setPart (c : ℕ) (p : Part) (v : V)
  | assign (c : ℕ) (p : Part) (v : V)
  | construct (k : Kind) (c : ℕ)
  | forward (t : ℕ)
  | backward (t : ℕ)
  | update (t : ℕ)
  | readout (t : ℕ)
  | postUpdate (t : ℕ)
  | save (t : ℕ)
  | load (t s : ℕ) (withConfig : Bool)
  | replace (t c : ℕ)
  | copy (t : ℕ)

/-- The settings that a call used. -/
abbrev Used (V : Type) := List (Part × V)

/-- Settings a forward pass uses (`set_config` done).  The input range settings are always read
from the tile's configuration (periphery.py, inference_torch.py:206-208). -/
def Tile.forwardUses (x : Tile V) (h : Heap V) : Used V :=
  (.prePost, h.read x.own .prePost) ::
  match x.kind with
  | .cpp => [(.forward, x.sim .forward)]
  | .transfer => [(.forward, x.sim .forward)]
  | .custom => [(.forward, h.val (x.ref .forward))]
  | .torch => [(.forward, h.val (x.ref .forward)), (.modifier, h.val (x.ref .modifier))]
  | .torchIR =>
    [(.forward, h.val (x.ref .forward)), (.modifier, h.val (x.ref .modifier)),
     (.noise, h.val (x.ref .noise))]

/-- Settings a backward pass uses; the torch tiles use autograd. -/
def Tile.backwardUses (x : Tile V) (h : Heap V) : Used V :=
  match x.kind with
  | .cpp => [(.backward, x.sim .backward)]
  | .transfer => [(.backward, x.sim .backward)]
  | .custom => [(.backward, h.val (x.ref .backward))]
  | .torch => []
  | .torchIR => []

/-- Settings an update uses; the weights of torch tiles are updated by the torch optimizer. -/
def Tile.updateUses (x : Tile V) (h : Heap V) : Used V :=
  match x.kind with
  | .cpp => [(.update, x.sim .update), (.device, x.sim .device)]
  | .transfer => [(.update, x.sim .update), (.device, h.val (x.ref .device))]
  | .custom => [(.update, h.val (x.ref .update))]
  | .torch => []
  | .torchIR => []

/-- Settings of programming and drift (`program_weights`, `drift_weights`,
`_forward_drift_readout_tensor`, inference.py:100-270): the read-out calls the simulator tile
directly, without `set_config`. -/
def Tile.readoutUses (x : Tile V) (h : Heap V) : Used V :=
  match x.kind with
  | .cpp =>
    [(.noise, h.read x.own .noise), (.drift, h.read x.own .drift), (.forward, x.sim .forward)]
  | .torch =>
    [(.noise, h.read x.own .noise), (.drift, h.read x.own .drift),
     (.forward, h.val (x.ref .forward))]
  | .torchIR =>
    [(.noise, h.read x.own .noise), (.drift, h.read x.own .drift),
     (.forward, h.val (x.ref .forward)), (.noise, h.val (x.ref .noise))]
  | .custom => []
  | .transfer => []

/-- One cached step of `post_update_step` (inference.py:307-343): the cache and what is used. -/
def cached (sem : Sem V) (x : Tile V) (h : Heap V) (p : Part) : Tile V × Used V :=
  if sem.active p (h.read x.own p) then
    if sem.onTheFly (h.read x.own .runtime) || (x.tmp p).isNone then
      ({ x with tmp := fun q => if q = p then some (h.read x.own p) else x.tmp q },
        [(p, h.read x.own p)])
    else (x, [(p, (x.tmp p).getD (h.read x.own p))])
  else (x, [])

/-- The settings of a live step (inference_torch.py:239-243). -/
def live (sem : Sem V) (x : Tile V) (h : Heap V) (p : Part) : Used V :=
  if sem.active p (h.read x.own p) then [(p, h.read x.own p)] else []

/-- `post_update_step`: clipping, remapping and (C++ tiles) the weight modifier. -/
def Tile.postUpdate (sem : Sem V) (x : Tile V) (h : Heap V) : Tile V × Used V :=
  match x.kind with
  | .cpp =>
    let a := cached sem x h .clip
    let b := cached sem a.1 h .remap
    let c := cached sem b.1 h .modifier
    (c.1, a.2 ++ b.2 ++ c.2)
  | .torch => (x, live sem x h .clip ++ live sem x h .remap)
  | .torchIR => (x, live sem x h .clip ++ live sem x h .remap)
  | .custom => (x, [])
  | .transfer => (x, [])

/-- `__getstate__` of inference tiles drops the cache (inference.py:345-349). -/
def Tile.dropTmp (x : Tile V) : Tile V := { x with tmp := fun _ => none }

/-- One call.  Calls on tiles, configurations or state dictionaries that do not exist have no
effect (they cannot be made). -/
def step (sem : Sem V) (w : World V) : Op V → World V × Used V
  | .config v cls => ({ w with heap := w.heap.newConfig v cls }, [])
  | .setPart c p v => if c < w.heap.nc then ({ w with heap := w.heap.setPart c p v }, []) else (w, [])
  | .assign c p v => if c < w.heap.nc then ({ w with heap := w.heap.assign c p v }, []) else (w, [])
  | .construct k c =>
    -- base.py:320, 342: the configuration is copied, but the simulator tile is made from the
    -- configuration of the caller
    if c < w.heap.nc then
      let x : Tile V := Tile.create ⟨k, w.heap.nc, w.heap.read c, w.heap.cfg c, fun _ => none⟩
        (w.heap.deepcopy c) c
      ({ w with
        heap := w.heap.deepcopy c
        tile := fun i => if i = w.nt then x else w.tile i
        nt := w.nt + 1 }, [])
    else (w, [])
  | .forward t =>
    if t < w.nt then
      let x := (w.tile t).setConfig w.heap
      (w.put t x, x.forwardUses w.heap)
    else (w, [])
  | .backward t => if t < w.nt then (w, (w.tile t).backwardUses w.heap) else (w, [])
  | .update t => if t < w.nt then (w, (w.tile t).updateUses w.heap) else (w, [])
  | .readout t => if t < w.nt then (w, (w.tile t).readoutUses w.heap) else (w, [])
  | .postUpdate t =>
    if t < w.nt then
      let r := (w.tile t).postUpdate sem w.heap
      (w.put t r.1, r.2)
    else (w, [])
  | .save t =>
    -- module.py:255-262, base.py:626-675: the dictionary refers to the tile's configuration
    if t < w.nt then
      let u := w.put t (w.tile t).dropTmp
      ({ u with
        saved := fun i => if i = w.ns then (w.tile t).own else w.saved i
        ns := w.ns + 1 }, [])
    else (w, [])
  | .load t s withConfig =>
    -- module.py:416-427, base.py:703-747: the saved configuration object becomes the tile's
    -- (unless `load_rpu_config=False`), its `tile_class` is overwritten, the simulator tile is
    -- made again, and the cache is kept.  The transfer tile only takes the configuration.
    if t < w.nt ∧ s < w.ns then
      let x := w.tile t
      let x' : Tile V := { x with own := w.loadedConfig t s withConfig }
      if x.kind = .transfer then (w.put t x', [])
      else
        let h := w.heap.setClass x'.own (w.heap.cls x.own)
        let u := w.put t (x'.recreate h)
        ({ u with heap := h }, [])
    else (w, [])
  | .replace t c =>
    -- module.py:369-388: a copy of the given configuration, with the tile's `tile_class`; the
    -- transfer tile raises `NotImplementedError`
    if t < w.nt ∧ c < w.heap.nc then
      if (w.tile t).kind = .transfer then (w, [])
      else
        let h := w.heap.deepcopy c
        let x : Tile V := { (w.tile t).dropTmp with own := w.heap.nc }
        let h' := h.setClass w.heap.nc (w.heap.cls (w.tile t).own)
        let u := w.put t (x.recreate h')
        ({ u with heap := h' }, [])
    else (w, [])
  | .copy t =>
    -- `copy.deepcopy(tile)`: `__getstate__` of the tile, a copy of the state (with the simulator
    -- tile, where it is a torch module), `__setstate__` of a new tile
    if t < w.nt then
      let h := w.heap.deepcopy (w.tile t).own
      let x : Tile V := { (w.tile t).dropTmp with
        own := w.heap.nc, ref := fun p => w.heap.np + (w.tile t).ref p }
      let u := w.put t (w.tile t).dropTmp
      ({ u with
        heap := h
        tile := fun i => if i = w.nt then x.recreate h else u.tile i
        nt := w.nt + 1 }, [])
    else (w, [])

/-- A program; what the calls used is listed in order. -/
def run (sem : Sem V) (w : World V) : List (Op V) → World V
  | [] => w
  | o :: l => run sem (step sem w o).1 l

/-- The settings used by a call after a program. -/
def usedBy (sem : Sem V) (w : World V) (o : Op V) : Used V := (step sem w o).2

/-- Nothing exists yet. -/
def empty [Inhabited V] : World V :=
  { heap := ⟨fun _ _ => 0, fun _ => default, fun _ => "", 0, 0⟩
    tile := fun _ => ⟨.cpp, 0, fun _ => default, fun _ => 0, fun _ => none⟩
    nt := 0, saved := fun _ => 0, ns := 0 }

end Aihw.Settings
