import Verif.Common
import Mathlib.Logic.Function.Basic

/-!
# The memory behind the weights of a tile

Model of who holds the memory of the weights of an analog tile on the CPU: the C++ tile (a raw
pointer), the tensor bound by the wrapper (`_shared_weight_tensor`), the optional parameter
`shared_weights`, and the raw data of the analog context.

Simplifications: CPU only (no CUDA tile, no transposed CUDA layout except for the parameter restored
from a checkpoint); one dtype; the content of a tensor is a row-major list and its storage an
address (a number), so that two tensors share memory iff they have the same address; views with an
offset are not part of this model (they are in `Verif.Shared.Rows`).  Hidden parameters, learning
rate, extra state and the RPU config are left out of `__setstate__`.
-/

namespace Aihw.Shared

open Aihw

variable {K : Type}

/-- A dense matrix in memory: its two sizes and its row-major content. -/
structure Buf (K : Type) where
  d : ℕ
  x : ℕ
  val : List K

/-- Same shape (`weights.dim() == 2`, `size(0)`, `size(1)`: rpu_base_tiles.cpp:189-190). -/
def Buf.sameShape (a : Buf K) (d x : ℕ) : Bool := a.d == d && a.x == x

/-- `Tensor.t()` materialised: entry `(i, j)` of the result is entry `(j, i)`. -/
def Buf.t [Inhabited K] (a : Buf K) : Buf K :=
  ⟨a.x, a.d, (List.range (a.x * a.d)).map fun k => a.val.getD ((k % a.d) * a.x + k / a.d) default⟩

/-- The memory: next free address, contents, and the addresses given back by `delete[]`. -/
structure Heap (K : Type) where
  next : ℕ
  mem : ℕ → Buf K
  dead : List ℕ

/-- A fresh tensor (or C++ array). -/
def Heap.alloc (h : Heap K) (b : Buf K) : Heap K :=
  { h with next := h.next + 1, mem := Function.update h.mem h.next b }

/-- In-place write of the content (`copy_`, `memcpy`). -/
def Heap.write (h : Heap K) (i : ℕ) (v : List K) : Heap K :=
  { h with mem := Function.update h.mem i { h.mem i with val := v } }

/-- The simulator tile: sizes, `*weights_`, `shared_weights_if_` (rpu.h:705).  `native` says whether
it is a C++ tile, i.e. whether `get_weights(as_ref=True)` raises a `TypeError`
(base.py:375-379); a Python tile keeps its weights in a torch tensor at `ptr`. -/
structure Tile where
  native : Bool
  d : ℕ
  x : ℕ
  ptr : ℕ
  shared : Bool

/-- The wrapper: `tile`, `_shared_weight_tensor` (base.py:343), `shared_weights` (rpucuda.py:112;
only the address of its `.data`), raw data of `analog_ctx` (base.py:346). -/
structure Wrap where
  tile : Tile
  bound : Option ℕ
  param : Option ℕ
  ctx : ℕ

/-- Outcome of a call: the exception, if any, and the state after it (also if it raised). -/
abbrev Res (K : Type) := Option PyErr × Wrap × Heap K

/-- rpu.cpp:1384-1398 `setSharedWeights` and its binding rpu_base_tiles.cpp:215-229: refuses another
shape; the first time the existing weights are copied into the given tensor and the own array is
deleted, later the content of the given tensor is taken over. -/
def setShared (t : Tile) (h : Heap K) (i : ℕ) : Option PyErr × Tile × Heap K :=
  if (h.mem i).sameShape t.d t.x = false then (some .runtimeError, t, h)
  else if t.shared then (none, { t with ptr := i }, h)
  else
    (none, { t with ptr := i, shared := true },
      { h.write i (h.mem t.ptr).val with dead := t.ptr :: h.dead })

/-- base.py:349-418 `_bind_shared_weights` on the CPU: nothing for a Python tile; otherwise a fresh
zero tensor of the size of the tile is handed to the tile and remembered.  `zero` is the 0 of the
dtype. -/
def bind (zero : K) (w : Wrap) (h : Heap K) : Res K :=
  if w.tile.native = false then (none, w, h)
  else
    let i := h.next
    let h := h.alloc ⟨w.tile.d, w.tile.x, List.replicate (w.tile.d * w.tile.x) zero⟩
    let r := setShared w.tile h i
    if r.1.isSome then (r.1, { w with tile := r.2.1 }, r.2.2)
    else (none, { w with tile := r.2.1, bound := some i }, r.2.2)

/-- base.py:420-458 `_get_tile_weights_ref` on the CPU: the bound tensor if there is one, else the
tensor of the Python tile.  (A C++ tile without bound tensor would return a copy: not reachable,
see `C90_memory`; modelled as the memory of the tile.) -/
def ref (w : Wrap) : ℕ := w.bound.getD w.tile.ptr

/-- base.py:460-478 `_sync_analog_ctx_weights` on the CPU (`ref.to(device)` on the same device is the
same tensor). -/
def sync (w : Wrap) : Wrap := if w.ctx != ref w then { w with ctx := ref w } else w

/-- rpucuda.py:211-229 `ensure_shared_weights`.  `arg` is the address of the data of the tensor
given, if any.  `None.data = …` is an `AttributeError`. -/
def ensure (w : Wrap) (h : Heap K) (arg : Option ℕ) : Res K :=
  if arg.isSome && w.param.isNone then (some .attributeError, w, h)
  else
    let w := { w with param := arg <|> w.param }
    match w.param with
    | none => (none, w, h)
    | some p =>
      let r := setShared w.tile h p
      if r.1.isSome then (r.1, { w with tile := r.2.1 }, r.2.2)
      else (none, { w with tile := r.2.1, bound := some p }, r.2.2)

/-- A new simulator tile with the weights its constructor produces: one array of its own. -/
def newTile (native : Bool) (d x : ℕ) (init : List K) (h : Heap K) : Tile × Heap K :=
  (⟨native, d, x, h.next, false⟩, h.alloc ⟨d, x, init⟩)

/-- base.py:306-347 `SimulatorTileWrapper.__init__` followed by rpucuda.py:112-117: create the tile,
bind it, create the context on the reference, then, if `shared_weights=True`, a zero parameter of
the size of the tile handed to the tile by `ensure_shared_weights`.  `shared` is ignored for a Python
tile (their wrappers do not have the argument). -/
def construct (zero : K) (native shared : Bool) (d x : ℕ) (init : List K) (h : Heap K) : Res K :=
  let (t, h) := newTile native d x init h
  let r := bind zero ⟨t, none, none, t.ptr⟩ h
  if r.1.isSome then r
  else
    let w := { r.2.1 with ctx := ref r.2.1 }
    let h := r.2.2
    if shared && native then
      let p := h.next
      ensure { w with param := some p }
        (h.alloc ⟨d, x, List.replicate (d * x) zero⟩) none
    else (none, w, h)

/-- `tile.set_weights` (rpu_base_tiles.cpp:185-203, rpu.cpp:1308-1314; torch_tile.py:74-80,
custom.py:147-153): refuses another shape, copies in place.  (`copy_` of the Python tiles would
broadcast; modelled as the same refusal.) -/
def tileSet (t : Tile) (h : Heap K) (v : Buf K) : Option PyErr × Heap K :=
  if v.sameShape t.d t.x then (none, h.write t.ptr v.val) else (some .runtimeError, h)

/-- base.py:492-506 `copy_to`, one target. -/
def copyTo [Inhabited K] (h : Heap K) (target : Option ℕ) (v : Buf K) : Option PyErr × Heap K :=
  match target with
  | none => (none, h)
  | some i =>
    if (h.mem i).sameShape v.d v.x then (none, h.write i v.val)
    else if (h.mem i).sameShape v.x v.d then (none, h.write i v.t.val)
    else (some .tileError, h)

/-- base.py:508-530: the parameter gets a new memory if it was restored in the transposed (CUDA)
layout, is refused if its shape is anything else, and is then filled. -/
def copyToParam [Inhabited K] (w : Wrap) (h : Heap K) (v : Buf K) : Res K :=
  match w.param with
  | none => (none, w, h)
  | some p =>
    if (h.mem p).sameShape v.d v.x then
      let r := copyTo h (some p) v
      (r.1, w, r.2)
    else if (h.mem p).sameShape v.x v.d then
      let i := h.next
      let h := h.alloc v
      let r := copyTo h (some i) v
      (r.1, { w with param := some i }, r.2)
    else (some .tileError, w, h)

/-- base.py:745-796, the part of `__setstate__` that concerns the memory: recreate the tile (with the
weights its constructor produces), bind, `set_weights`, copy into the Python side tensors, hand the
parameter to the tile, new context on the reference. -/
def restore [Inhabited K] (zero : K) (w : Wrap) (init : List K) (v : Buf K) (h : Heap K) : Res K :=
  let (t, h) := newTile w.tile.native w.tile.d w.tile.x init h
  let r := bind zero { w with tile := t, bound := none } h
  if r.1.isSome then r
  else
    let w := r.2.1
    let s := tileSet w.tile r.2.2 v
    if s.1.isSome then (s.1, w, s.2)
    else
      let c := copyTo s.2 w.bound v
      if c.1.isSome then (c.1, w, c.2)
      else
        let q := copyToParam w c.2 v
        if q.1.isSome then q
        else
          let e := if q.2.1.param.isSome then ensure q.2.1 q.2.2 none else q
          if e.1.isSome then e
          else (none, { e.2.1 with ctx := ref e.2.1 }, e.2.2)

/-- What can be done to a tile.  Addresses in the arguments are those of tensors of the user. -/
inductive Op (K : Type) where
  /-- `analog_tile.set_weights` (periphery.py:173-177), `v` the combined raw matrix -/
  | setWeights (v : Buf K)
  /-- a raw `tile.set_weights` (inference.py:210, 253; periphery.py:290) -/
  | rawSet (v : Buf K)
  /-- the tile modifies its weights in place: update, decay, diffusion, drift, reset, clipping -/
  | inPlace (f : List K → List K)
  /-- an optimizer (or the user) modifies the parameter `shared_weights` in place -/
  | optim (f : List K → List K)
  /-- `analog_tile.shared_weights.data = tensor` -/
  | assign (i : ℕ)
  /-- functions.py:45-48: a forward pass; `none`: with the parameter of the tile itself, `some i`:
  with another tensor -/
  | forward (arg : Option ℕ)
  /-- functions.py:82-83: the backward pass with the tensor remembered by the forward pass -/
  | backward (arg : Option ℕ)
  /-- `__setstate__` on the same object (`load_state_dict`, `replace_with`): `v` the loaded weights,
  `init` the weights of the fresh tile, `none` whether the state carries `shared_weights = None`
  (base.py:741 `__dict__.update`) -/
  | reload (v : Buf K) (init : List K) (none : Bool)
  /-- `_sync_analog_ctx_weights` (module.py:180, 198) -/
  | sync

/-- One operation. -/
def step [Inhabited K] (zero : K) (w : Wrap) (h : Heap K) : Op K → Res K
  | .setWeights v =>
    let r := tileSet w.tile h v
    if r.1.isSome then (r.1, w, r.2) else (none, sync w, r.2)
  | .rawSet v => let r := tileSet w.tile h v; (r.1, w, r.2)
  | .inPlace f => (none, w, h.write w.tile.ptr (f (h.mem w.tile.ptr).val))
  | .optim f =>
    match w.param with
    | none => (some .attributeError, w, h)
    | some p => (none, w, h.write p (f (h.mem p).val))
  | .assign i =>
    match w.param with
    | none => (some .attributeError, w, h)
    | some _ => (none, { w with param := some i }, h)
  | .forward arg => if arg.isSome || w.param.isSome then ensure w h (arg <|> w.param) else (none, w, h)
  | .backward arg => if arg.isSome || w.param.isSome then ensure w h (arg <|> w.param) else (none, w, h)
  | .reload v init no =>
    restore zero { w with param := if no then none else w.param } init v h
  | .sync => (none, Shared.sync w, h)

/-- A history: the calls one after the other, going on after an exception that was caught. -/
def run [Inhabited K] (zero : K) (w : Wrap) (h : Heap K) : List (Op K) → Wrap × Heap K
  | [] => (w, h)
  | o :: os => let r := step zero w h o; run zero r.2.1 r.2.2 os

/-- The history with all outcomes (none: no exception). -/
def outcomes [Inhabited K] (zero : K) (w : Wrap) (h : Heap K) : List (Op K) → List (Option PyErr)
  | [] => []
  | o :: os => let r := step zero w h o; r.1 :: outcomes zero r.2.1 r.2.2 os

/-- `copy.deepcopy` / pickling: base.py:645-676 `__getstate__`, the parameter is cloned, the weights
are those of the tile, then `__setstate__` on a new object.  The context is not copied
(context.py:437-444: a parameter on the same memory) until `__setstate__` creates a new one. -/
def deepcopy [Inhabited K] (zero : K) (w : Wrap) (init : List K) (h : Heap K) : Res K :=
  let v := h.mem w.tile.ptr
  match w.param with
  | none => restore zero w init v h
  | some p =>
    let i := h.next
    let h := h.alloc (h.mem p)
    restore zero { w with param := some i } init v h

/-! ### What a user reads -/

/-- `tile.get_weights()` (rpu_base_tiles.cpp:163-173, rpu.cpp:1454-1457): a copy. -/
def weightsOf (w : Wrap) (h : Heap K) : Buf K := h.mem w.tile.ptr

/-- The raw data of the context (context.py:243-246). -/
def contextOf (w : Wrap) (h : Heap K) : Buf K := h.mem w.ctx

/-- The content of the parameter. -/
def paramOf (w : Wrap) (h : Heap K) : Option (Buf K) := w.param.map h.mem

end Aihw.Shared
