import Verif.Common

/-!
# Analog containers: `AnalogLayerBase`, `AnalogContainerBase`

Models nn/modules/base.py:27-417 and nn/modules/container.py:22-58 on a heap of module objects; the
same object may be registered under several names, and cycles are allowed.

Simplifications (stated once):
* a module object is its kind, its ordered `_modules` dictionary, its `training` flag and its
  `_analog_tile_counter` attribute; the state of a tile is kept in a separate map and the functions of
  a tile are arbitrary functions of it which may raise;
* the generator of torch's `named_modules` is a list computed before the loop (the modelled loop
  bodies do not change `_modules`);
* reading weights does not change a tile (`realistic=False`);
* a tensor of a state dictionary is its number of dimensions and a value.
-/
namespace Aihw.Container

/-- What an object is an instance of: `TileModule` (`inference`: of `InferenceTileWithPeriphery`,
`ddp`: its `supports_ddp`), `AnalogLayerBase` with `IS_CONTAINER` false or true, anything else. -/
inductive Kind where
  | tile (inference ddp : Bool)
  | layer
  | container
  | other
  deriving DecidableEq

/-- A module object. -/
structure Obj where
  kind : Kind
  kids : List (String × Option Nat)
  training : Bool
  counter : Option Nat
  deriving DecidableEq

/-- All objects (`size` of them) and the states of the tiles. -/
structure Sys (σ : Type) where
  heap : Nat → Obj
  size : Nat
  st : Nat → σ

variable {σ W : Type}

/-- torch `named_modules`: `submodule_prefix = prefix + ("." if prefix else "") + name`. -/
def subName (nm n : String) : String := if nm = "" then n else nm ++ "." ++ n

/-- torch `Module.named_modules(memo, prefix)`: depth first, every object once, `None` entries are
skipped.  `fuel` bounds the depth (never exhausted, see `visit_spec`). -/
def visit (h : Nat → Obj) : Nat → String → Nat → List Nat → List (String × Nat) × List Nat
  | 0, _, _, memo => ([], memo)
  | f + 1, nm, i, memo =>
    if i ∈ memo then ([], memo)
    else (h i).kids.foldl (fun a p => match p.2 with
      | none => a
      | some j =>
        let r := visit h f (subName nm p.1) j a.2
        (a.1 ++ r.1, r.2)) ([(nm, i)], i :: memo)

/-- `self.named_modules()`. -/
def namedModules (s : Sys σ) (root : Nat) : List (String × Nat) :=
  (visit s.heap (s.size + 1) "" root []).1

/-- `isinstance(module, TileModule)`. -/
def Kind.isTile : Kind → Bool
  | .tile _ _ => true
  | _ => false

/-- `isinstance(module, AnalogLayerBase)`. -/
def Kind.isAnalog : Kind → Bool
  | .layer => true
  | .container => true
  | _ => false

/-- `named_analog_tiles` (base.py:149-153). -/
def namedTiles (s : Sys σ) (root : Nat) : List (String × Nat) :=
  (namedModules s root).filter fun p => (s.heap p.2).kind.isTile

/-- `named_analog_layers` (base.py:93-105). -/
def namedLayers (s : Sys σ) (root : Nat) : List (String × Nat) :=
  (namedModules s root).filter fun p => (s.heap p.2).kind.isAnalog &&
    !decide ((s.heap p.2).kind = .container)

/-- `named_analog_modules` (base.py:118-127). -/
def namedAnalogModules (s : Sys σ) (root : Nat) : List (String × Nat) :=
  (namedModules s root).filter fun p => (s.heap p.2).kind.isAnalog

/-- `analog_tile_count` (base.py:129-142). -/
def tileCount (s : Sys σ) (root : Nat) : Nat × Sys σ :=
  match (s.heap root).counter with
  | some n => (n, s)
  | none =>
    let n := (namedTiles s root).length
    (n, { s with heap := fun k => if k = root then { s.heap root with counter := some n } else s.heap k })

/-- A loop over tiles whose body acts on the tile; an exception ends it. -/
def tileLoop (body : String → Nat → σ → Except PyErr Unit × σ) :
    List (String × Nat) → Sys σ → Except PyErr Unit × Sys σ
  | [], s => (.ok (), s)
  | (n, i) :: l, s =>
    let r := body n i (s.st i)
    let s' := { s with st := fun k => if k = i then r.2 else s.st k }
    match r.1 with
    | .error e => (.error e, s')
    | .ok _ => tileLoop body l s'

/-- The functions of a tile used by the containers.  `program` is the method with the argument
`noise_model`. -/
structure TileOps (σ W : Type) where
  get : σ → Except PyErr W
  set : W → σ → Except PyErr Unit × σ
  drift : ℚ → σ → Except PyErr Unit × σ
  program : Option Nat → σ → Except PyErr Unit × σ
  remap : Option ℚ → σ → Except PyErr Unit × σ
  setLoadFlags : Option Bool → Option Bool → σ → σ

/-- `apply_to_analog_tiles` (base.py:60-80) for a function acting on the tile. -/
def applyTiles (fn : Nat → σ → Except PyErr Unit × σ) (root : Nat) (s : Sys σ) :
    Except PyErr Unit × Sys σ := tileLoop (fun _ i => fn i) (namedTiles s root) s

/-- `get_weights` of a container (container.py:26-41): the ordered dictionary. -/
def getWeights (T : TileOps σ W) (root : Nat) (s : Sys σ) : Except PyErr (List (String × W)) :=
  (namedTiles s root).mapM fun p => (T.get (s.st p.2)).map fun w => (p.1, w)

/-- The value of a key. -/
def look {β : Type} (n : String) : List (String × β) → Option β
  | [] => none
  | (m, v) :: l => if m = n then some v else look n l

/-- `set_weights` of a container (container.py:43-58). -/
def setWeights (T : TileOps σ W) (dic : List (String × W)) (root : Nat) (s : Sys σ) :
    Except PyErr Unit × Sys σ :=
  tileLoop (fun n _ c => match look n dic with
    | none => (.error .moduleError, c)
    | some w => T.set w c) (namedTiles s root) s

/-- `drift_analog_weights` (base.py:316-329). -/
def driftWeights (T : TileOps σ W) (t : ℚ) (root : Nat) (s : Sys σ) : Except PyErr Unit × Sys σ :=
  if (s.heap root).training then (.error .moduleError, s)
  else tileLoop (fun _ i c => match (s.heap i).kind with
    | .tile true _ => T.drift t c
    | _ => (.ok (), c)) (namedTiles s root) s

/-- `program_analog_weights` (base.py:331-351).  The `program_weights` of tiles that are not inference
tiles (periphery.py:245-253) has no argument `noise_model`. -/
def programWeights (T : TileOps σ W) (noise : Option Nat) (root : Nat) (s : Sys σ) :
    Except PyErr Unit × Sys σ :=
  if (s.heap root).training then (.error .moduleError, s)
  else tileLoop (fun _ i c => match (s.heap i).kind with
    | .tile true _ => T.program noise c
    | _ => (.error .typeError, c)) (namedTiles s root) s

/-- `remap_analog_weights` (base.py:369-398). -/
def remapWeights (T : TileOps σ W) (omega : Option ℚ) (root : Nat) (s : Sys σ) :
    Except PyErr Unit × Sys σ :=
  tileLoop (fun _ _ c => T.remap omega c) (namedTiles s root) s

/-! ## Checkpoints and distributed training -/

/-- A tensor of a state dictionary: number of dimensions and content. -/
structure Ten where
  dim : Nat
  val : Nat
  deriving DecidableEq

/-- `name.endswith("analog_ctx") and param.size() == torch_size([])` (base.py:249). -/
def emptyCtx (p : String × Ten) : Bool :=
  decide ("analog_ctx".toList <:+ p.1.toList) && decide (p.2.dim = 0)

/-- `load_state_dict` (base.py:208-275) up to the call of torch's: the dictionary of the caller
afterwards, the flags set on the tiles, and the `strict` argument torch's `load_state_dict` gets. -/
def loadStateDict (T : TileOps σ W) (sd : List (String × Ten)) (strict : Bool)
    (cfg chk : Option Bool) (root : Nat) (s : Sys σ) : List (String × Ten) × Bool × Sys σ :=
  let del := (sd.filter emptyCtx).map (·.1)
  let sd' := if 0 < del.length then sd.filter fun p => !decide (p.1 ∈ del) else sd
  let strict' := if 0 < del.length then false else strict
  (sd', strict', (tileLoop (fun _ _ c => (.ok (), T.setLoadFlags cfg chk c)) (namedTiles s root) s).2)

/-- `word in param`. -/
def contains (word param : String) : Bool := decide (word.toList <:+: param.toList)

/-- The inner loop over the words (base.py:310-313). -/
def ddpParam (words : List String) (acc : List String) (param : String) : List String :=
  if words.any fun w => contains w param && !decide (w ∈ acc) then acc ++ [param] else acc

/-- `not analog_tile.supports_ddp` for a tile (base.py:297-303). -/
def Kind.noDdp : Kind → Bool
  | .tile _ ddp => !ddp
  | _ => false

/-- `prepare_for_ddp` (base.py:277-314): the parameters to ignore.  `words` is `list(set(...))`, its
order is arbitrary. -/
def prepareDdp (words keys : List String) (root : Nat) (s : Sys σ) : Except PyErr (List String) :=
  if (namedModules s root).any fun p => (s.heap p.2).kind.isAnalog &&
      (namedTiles s p.2).any fun q => (s.heap q.2).kind.noDdp then .error .moduleError
  else .ok (keys.foldl (ddpParam words) [])

end Aihw.Container
