import Verif.TileArray.Props
import Mathlib.Algebra.BigOperators.Group.List.Basic
import Mathlib.Algebra.Order.BigOperators.Group.List

/-!
# C77: `analog_summary` (utils/analog_info.py)

A model is a tree of modules.  What the model computes in a forward pass is not modelled: a forward
pass is an arbitrary list of calls of modules with arbitrary arguments and results, after each of which
the forward hooks registered on the module run in order of registration (torch).  Modules reachable on
several paths appear several times with the same identity; `children()` of one module lists no module
twice.  Names, kernel sizes and the printed table are not modelled.
-/
namespace Aihw.Info
open Aihw

/-- The classes `analog_info.py` distinguishes (analog_info.py:126-128, 145-150); `AnalogLinearMapped` is
a subclass of `AnalogLinear`. -/
inductive Cls where
  | linear | linearMapped | conv | convMapped | other
  deriving DecidableEq, Repr

/-- An analog tile: logical sizes and the limits of its configuration. -/
structure TileSpec where
  inSize : Nat
  outSize : Nat
  maxIn : ℤ
  maxOut : ℤ
  deriving DecidableEq

/-- A module without its children: identity, whether it is an `AnalogLayerBase`, `IS_CONTAINER`, class,
and the tile if it is a `TileModule`. -/
structure Node where
  id : Nat
  analog : Bool
  container : Bool
  cls : Cls
  tile : Option TileSpec

/-- A module with its children. -/
inductive Mod where
  | mk (n : Node) (ch : List Mod)

/-- The module itself. -/
def Mod.node : Mod → Node
  | .mk n _ => n

mutual
/-- `analog_tiles()` (nn/modules/base.py:144-147): the tiles in the subtree. -/
def Mod.tiles : Mod → List TileSpec
  | .mk n ch => n.tile.toList ++ tilesAll ch
/-- … of a list of modules. -/
def tilesAll : List Mod → List TileSpec
  | [] => []
  | m :: l => m.tiles ++ tilesAll l
end

/-- What a hook knows about its module. -/
structure Layer where
  id : Nat
  analog : Bool
  cls : Cls
  tiles : List TileSpec

/-- The layer of a module. -/
def Mod.layer (m : Mod) : Layer := ⟨m.node.id, m.node.analog, m.node.cls, m.tiles⟩

/-- Whether a module gets the hook itself (analog_info.py:207-217): no children, or an analog layer that
is no container and has no analog children. -/
def takesHook (n : Node) (ch : List Mod) : Bool :=
  ch.isEmpty || (n.analog && !n.container && ch.all fun c => !c.node.analog)

mutual
/-- `register_hooks_recursively` (analog_info.py:202-220). -/
def Mod.regs : Mod → List Layer
  | .mk n ch => if takesHook n ch then [(Mod.mk n ch).layer] else regsAll ch
/-- … over the children. -/
def regsAll : List Mod → List Layer
  | [] => []
  | m :: l => m.regs ++ regsAll l
end

/-- Summary of a tile: logical shape and utilisation in percent. -/
structure TInfo where
  logOut : Nat
  logIn : Nat
  util : ℚ
  deriving DecidableEq

/-- `TileInfo.__init__` (analog_info.py:61-69). -/
def tileInfo (mapped : Bool) (t : TileSpec) : Except PyErr TInfo :=
  if mapped then
    if t.maxIn * t.maxOut = 0 then .error .zeroDivision
    else .ok ⟨t.outSize, t.inSize, ((t.inSize * t.outSize * 100 : Nat) : ℚ) / ((t.maxIn * t.maxOut : ℤ) : ℚ)⟩
  else .ok ⟨t.outSize, t.inSize, 100⟩

/-- Classes that count as mapped (analog_info.py:126-127). -/
def Cls.mapped : Cls → Bool
  | .linearMapped => true
  | .convMapped => true
  | _ => false

/-- `calculate_reuse_factor` (analog_info.py:138-150). -/
def reuseFactor (c : Cls) (inp out : List Nat) : Except PyErr Nat :=
  match c with
  | .linear | .linearMapped =>
    match inp.getLast? with
    | none => .error .indexError
    | some n => if n = 0 then .error .zeroDivision else .ok (inp.prod / n)
  | .conv | .convMapped =>
    match out[1]? with
    | none => .error .indexError
    | some n => if n = 0 then .error .zeroDivision else .ok (out.prod / n)
  | .other => .ok 0

/-- An argument or result of a call: no positional argument, a tensor or something else. -/
inductive Arg where
  | missing | notTensor | tensor (shape : List Nat)

/-- Entry of the summary. -/
structure LInfo where
  id : Nat
  analog : Bool
  numTiles : Nat
  tiles : List TInfo
  reuse : Nat
  inp : List Nat
  out : List Nat
  deriving DecidableEq

/-- `set_tiles_info` (analog_info.py:123-131). -/
def tilesInfo (l : Layer) : Except PyErr (List TInfo) :=
  if l.analog then l.tiles.mapM (tileInfo l.cls.mapped) else .ok []

/-- `LayerInfo.__init__` (analog_info.py:100-117). -/
def layerInfo (l : Layer) (inp out : List Nat) : Except PyErr LInfo := do
  let ts ← tilesInfo l
  let r ← reuseFactor l.cls inp out
  .ok ⟨l.id, l.analog, if l.analog then l.tiles.length else 0, ts, r, inp, out⟩

/-- The shape of an argument: `_input[0].size()`. -/
def Arg.size : Arg → Except PyErr (List Nat)
  | .missing => .error .indexError
  | .notTensor => .error .attributeError
  | .tensor s => .ok s

/-- A call of a module in a forward pass. -/
structure Call where
  id : Nat
  inp : Arg
  out : Arg

/-- A registered hook: the summary it belongs to and the layer. -/
structure Hook where
  owner : Nat
  layer : Layer

/-- All summaries made so far: the layer lists (also of failed ones, whose list is only reachable through
the hooks) and, for successful ones, the totals. -/
structure World where
  hooks : List Hook
  lists : List (List LInfo)
  totals : List (Option (Nat × Nat))

/-- `get_size_hook` (analog_info.py:230-234). -/
def runHook (c : Call) (h : Hook) (lists : List (List LInfo)) : Except PyErr (List (List LInfo)) := do
  let i ← c.inp.size
  let o ← c.out.size
  let e ← layerInfo h.layer i o
  .ok (lists.modify h.owner (· ++ [e]))

/-- The hooks of one call, in order; an exception keeps what was recorded before. -/
def runHooks (c : Call) : List Hook → List (List LInfo) → List (List LInfo) × Except PyErr Unit
  | [], l => (l, .ok ())
  | h :: hs, l =>
    if h.layer.id = c.id then
      match runHook c h l with
      | .error e => (l, .error e)
      | .ok l' => runHooks c hs l'
    else runHooks c hs l

/-- A forward pass. -/
def forward (hooks : List Hook) : List Call → List (List LInfo) → List (List LInfo) × Except PyErr Unit
  | [], l => (l, .ok ())
  | c :: cs, l =>
    match runHooks c hooks l with
    | (l', .error e) => (l', .error e)
    | (l', .ok _) => forward hooks cs l'

/-- The user runs the model. -/
def World.run (w : World) (cs : List Call) : World × Except PyErr Unit :=
  ({ w with lists := (forward w.hooks cs w.lists).1 }, (forward w.hooks cs w.lists).2)

/-- `calculate_num_tiles`, `calculate_num_analog` (analog_info.py:242-254). -/
def totalsOf (l : List LInfo) : Nat × Nat :=
  ((l.map LInfo.numTiles).sum, (l.map fun x => if x.analog then 1 else 0).sum)

/-- `analog_summary` (analog_info.py:192-200, 222-240, 288-314): hooks are registered and never removed, the model
is run on zeros (calls `cs`), the totals are computed. -/
def World.summary (w : World) (m : Mod) (cs : List Call) : World × Except PyErr Nat :=
  let k := w.lists.length
  let hooks := w.hooks ++ m.regs.map (Hook.mk k)
  match forward hooks cs (w.lists ++ [[]]) with
  | (l, .error e) => (⟨hooks, l, w.totals ++ [none]⟩, .error e)
  | (l, .ok _) => (⟨hooks, l, w.totals ++ [some (totalsOf (l.getD k []))]⟩, .ok k)

end Aihw.Info
