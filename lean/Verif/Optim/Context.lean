import Verif.Common

/-!
# The analog context as a tensor (optim/context.py, optim/weight_view.py)

Tensors are Python objects referring to a storage: a storage number, the positions of the storage
they show, and their class (plain tensor, `ReadOnlyWeightView`, `PlaceholderDataView`).  Storage 0 is
the weight memory of the tile: `_get_tile_weights_ref` returns a live reference for C++ tiles bound to
a shared tensor and for Python tiles (tiles/base.py:420-456; the copying fallback is not modelled).

A torch function is arbitrary: a name, and an arbitrary effect on values; it may overwrite its first
argument, overwrites its `out=` targets, and returns a fresh tensor, a view of an argument or its
first argument.
-/
namespace Aihw.Optim.Context
open Aihw

inductive Cls where
  | plain | ro | ph
  deriving DecidableEq, Repr

/-- A Python tensor object. -/
structure H where
  sid : Nat
  sel : List Nat
  cls : Cls
  deriving DecidableEq, Repr

/-- `AnalogContextDataViewMode`. -/
inductive Mode where
  | placeholder | dataView | buffer
  deriving DecidableEq, Repr

/-- The static part of the tile: physical matrix `d × x`, logical input size, analog bias. -/
structure TileDim where
  d : Nat
  x : Nat
  inSize : Nat
  analogBias : Bool
  deriving DecidableEq, Repr

structure CS where
  heap : Nat → List ℚ
  next : Nat
  mode : Mode
  buf : Option H
  scales : Option (List ℚ)
  reqGrad : Bool
  held : List H

/-- `TorchFn.result`. -/
inductive Ret where
  | fresh (f : List (List ℚ) → List ℚ)
  | view (k : Nat) (g : List Nat → List Nat)
  | first

structure TorchFn where
  name : String
  writesFirst : Bool
  newFirst : List (List ℚ) → List ℚ
  newOut : List (List ℚ) → List ℚ
  result : Ret

/-- An operand written by the user: the context itself, or a tensor object the user holds. -/
inductive Arg where
  | ctx
  | held (k : Nat)
  deriving DecidableEq, Repr

/-! ## Storage -/

def read (h : H) (s : CS) : List ℚ := h.sel.map fun k => (s.heap h.sid).getD k 0

def writeSel (old : List ℚ) (sel : List Nat) (v : List ℚ) : List ℚ :=
  (sel.zip v).foldl (fun l p => l.set p.1 p.2) old

def write (h : H) (v : List ℚ) (s : CS) : CS :=
  { s with heap := fun k => if k = h.sid then writeSel (s.heap k) h.sel v else s.heap k }

def alloc (v : List ℚ) (cls : Cls) (s : CS) : H × CS :=
  (⟨s.next, List.range v.length, cls⟩,
   { s with heap := (fun k => if k = s.next then v else s.heap k), next := s.next + 1 })

/-! ## Views of the tile weights -/

/-- Number of logical columns, context.py:272-274, 285-286. -/
def cols (t : TileDim) : Nat := if t.analogBias then t.inSize else t.x

/-- Positions of the logical weights within the raw row-major matrix, context.py:284-286. -/
def logicalSel (t : TileDim) : List Nat :=
  (List.range t.d).flatMap fun r => (List.range (cols t)).map fun c => r * t.x + c

/-- `scales.view(-1, 1)` broadcast over the rows: one value, or one per row. -/
def scaleOf (sc : List ℚ) (r : Nat) : ℚ := if sc.length = 1 then sc.getD 0 1 else sc.getD r 1

/-- `logical * scales.view(-1, 1)`, context.py:296-297. -/
def scaledVals (t : TileDim) (sc : List ℚ) (raw : List ℚ) : List ℚ :=
  (List.range t.d).flatMap fun r => (List.range (cols t)).map fun c =>
    raw.getD (r * t.x + c) 0 * scaleOf sc r

/-- `_logical_data`, context.py:276-297: without scales the raw tensor or a slice of it (shared
storage), with scales a new tensor. -/
def logicalData (t : TileDim) (s : CS) : H × CS :=
  match s.scales with
  | none => (⟨0, logicalSel t, .plain⟩, s)
  | some sc => alloc (scaledVals t sc (s.heap 0)) .plain s

/-- Uninitialised memory of the logical shape (`new_empty`, context.py:299-301): `junk` is arbitrary,
cut or filled to size. -/
def emptyVals (t : TileDim) (junk : List ℚ) : List ℚ :=
  (List.range (t.d * cols t)).map fun k => junk.getD k 0

/-- `_public_data` (the attribute `.data`), context.py:311-320. -/
def publicData (t : TileDim) (junk : List ℚ) (s : CS) : Except PyErr (H × CS) :=
  match s.mode with
  | .placeholder => .ok (alloc (emptyVals t junk) .ph s)
  | .dataView =>
    let r := logicalData t s
    .ok ({ r.1 with cls := .ro }, r.2)
  | .buffer => match s.buf with
    | some b => .ok (b, s)
    | none => .error .attributeError

/-! ## Dispatch of torch functions -/

/-- `is_inplace_operation`, weight_view.py:16-18. -/
def isInplace (n : String) : Bool := n.toList.getLast? == some '_' && !(n.toList.reverse.take 2 == ['_', '_'])

/-- `_PLACEHOLDER_METADATA_FUNCTIONS`, weight_view.py:97-132. -/
def metadataFns : List String :=
  ["__get__", "__len__", "__reduce__", "__reduce_ex__", "detach", "dim", "element_size",
   "is_contiguous", "nelement", "numel", "size", "storage_offset", "stride", "type",
   "requires_grad_", "ndimension", "get_device", "data_ptr", "dense_dim", "sparse_dim", "has_names",
   "is_floating_point", "is_complex", "is_signed", "is_conj", "is_neg", "is_pinned", "is_shared",
   "is_inference", "is_distributed", "_is_view", "_is_zerotensor"]

def argCls (s : CS) : Arg → Option Cls
  | .ctx => none
  | .held k => (s.held[k]?).map H.cls

/-- `is_readonly`, context.py:169-174. -/
def isReadonly (s : CS) : Arg → Bool
  | .ctx => s.mode != .buffer
  | .held k => argCls s (.held k) == some .ro

def isPh (s : CS) (a : Arg) : Bool := argCls s a == some .ph

/-- The guards of the three `__torch_function__` implementations (context.py:150-176,
weight_view.py:33-51, 70-80, 160-184); each handler re-dispatches to the others, so the call proceeds
iff none of them objects. All objections are `RuntimeError`. -/
def guard (fn : TorchFn) (args outs : List Arg) (s : CS) : Except PyErr Unit :=
  if isInplace fn.name && (args.head?.map (isReadonly s)).getD false then .error .runtimeError
  else if outs.any (isReadonly s) then .error .runtimeError
  else if isInplace fn.name && (args.head?.map (isPh s)).getD false then .error .runtimeError
  else if outs.any (isPh s) then .error .runtimeError
  else if args.any (isPh s) && !metadataFns.contains fn.name then .error .runtimeError
  else .ok ()

/-- `_torch_function_data` for the context (context.py:322-333), the object itself for a held tensor
(views are unwrapped to plain tensors of the same storage, weight_view.py:82-87, 191-198). -/
def toPublic (t : TileDim) (n : String) (junk : List ℚ) (a : Arg) (s : CS) : Except PyErr (H × CS) :=
  match a with
  | .held k => match s.held[k]? with
    | some h => .ok (h, s)
    | none => .error .other
  | .ctx => match s.mode with
    | .placeholder =>
      if metadataFns.contains n then .ok (alloc (emptyVals t junk) .ph s) else .error .runtimeError
    | .dataView => .ok (logicalData t s)
    | .buffer => match s.buf with
      | some b => .ok (b, s)
      | none => .error .attributeError

def toPublicAll (t : TileDim) (n : String) (junk : List ℚ) : List Arg → CS → Except PyErr (List H × CS)
  | [], s => .ok ([], s)
  | a :: l, s =>
    match toPublic t n junk a s with
    | .error e => .error e
    | .ok (h, s) => match toPublicAll t n junk l s with
      | .error e => .error e
      | .ok (hs, s) => .ok (h :: hs, s)

/-- The class of a returned view: `detach` of a placeholder stays a placeholder
(weight_view.py:186-189), otherwise views come back as plain tensors. -/
def viewCls (n : String) (h : H) : Cls := if h.cls = .ph ∧ n = "detach" then .ph else .plain

def writeFirst (fn : TorchFn) (hs : List H) (vals : List (List ℚ)) (s : CS) : CS :=
  match fn.writesFirst, hs.head? with
  | true, some h => write h (fn.newFirst vals) s
  | _, _ => s

def writeOuts (v : List ℚ) (os : List H) (s : CS) : CS := os.foldl (fun s o => write o v s) s

def pushResult (fn : TorchFn) (hs : List H) (vals : List (List ℚ)) (s : CS) : CS :=
  match fn.result with
  | .fresh f =>
    let r := alloc (f vals) .plain s
    { r.2 with held := r.2.held ++ [r.1] }
  | .view k g => match hs[k]? with
    | some h => { s with held := s.held ++ [⟨h.sid, g h.sel, viewCls fn.name h⟩] }
    | none => s
  | .first => match hs.head? with
    | some h => { s with held := s.held ++ [{ h with cls := .plain }] }
    | none => s

/-- The torch function itself on plain tensors: its writes, then the returned tensor is pushed on the
user's list. -/
def apply (fn : TorchFn) (hs os : List H) (s : CS) : CS :=
  let vals := hs.map fun h => read h s
  pushResult fn hs vals (writeOuts (fn.newOut vals) os (writeFirst fn hs vals s))

/-- A call of a torch function on the context and/or held tensors. -/
def torchCall (t : TileDim) (fn : TorchFn) (args outs : List Arg) (junk : List ℚ) (s : CS) :
    Except PyErr Unit × CS :=
  if fn.name = "requires_grad_" ∧ args.head? = some .ctx then
    -- context.py:157-167 (default argument; `Cmd.requiresGrad` has the explicit one)
    (.ok (), { s with reqGrad := true })
  else match guard fn args outs s with
    | .error e => (.error e, s)
    | .ok _ => match toPublicAll t fn.name junk args s with
      | .error e => (.error e, s)
      | .ok (hs, s1) => match toPublicAll t fn.name junk outs s1 with
        | .error e => (.error e, s)
        | .ok (os, s2) => (.ok (), apply fn hs os s2)

/-! ## The remaining public operations -/

inductive Cmd where
  | setMode (m : Mode)
  | setModeInvalid
  | getData (junk : List ℚ)
  | getDataMethod
  | call (fn : TorchFn) (args outs : List Arg) (junk : List ℚ)
  | requiresGrad (v : Bool)
  | setItem (a : Arg) (v : List ℚ)
  | assignData
  | copy
  | tileWrite (w : List ℚ)
  | setScales (sc : Option (List ℚ))

def pyOk (s : CS) : Except PyErr Unit × CS := (.ok (), s)
def pyErr (e : PyErr) (s : CS) : Except PyErr Unit × CS := (.error e, s)

def setMode (t : TileDim) (m : Mode) (s : CS) : CS :=
  match m with
  | .buffer =>
    let r := alloc (List.replicate (t.d * cols t) 0) .plain s
    { r.2 with mode := .buffer, buf := some r.1 }
  | m => { s with mode := m, buf := none }

def setItem (a : Arg) (v : List ℚ) (s : CS) : Except PyErr Unit × CS :=
  match a with
  | .ctx => pyErr .runtimeError s
  | .held k => match s.held[k]? with
    | some h => if h.cls = .plain then pyOk (write h v s) else pyErr .runtimeError s
    | none => pyErr .other s

def getData (t : TileDim) (junk : List ℚ) (s : CS) : Except PyErr Unit × CS :=
  match publicData t junk s with
  | .ok (h, s) => pyOk { s with held := s.held ++ [h] }
  | .error e => pyErr e s

/-- `get_data`, context.py:414-418. -/
def getDataMethod (t : TileDim) (s : CS) : Except PyErr Unit × CS :=
  if s.mode = .placeholder then pyErr .runtimeError s
  else match publicData t [] s with
    | .ok (h, s) => pyOk { s with held := s.held ++ [{ h with cls := .plain }] }
    | .error e => pyErr e s

/-- One public operation: `data_view_mode` setter (context.py:234-242; an invalid value raises
`ValueError`), `.data`, `get_data()`, torch calls, `requires_grad_(v)` and
`requires_grad = v` (context.py:157-167, 380-388), item assignment (context.py:187-192,
weight_view.py:89-94, 209-211), `.data = …` (context.py:373-379), `copy.copy` / `copy.deepcopy`
(context.py:434-441: a plain `Parameter` on the raw tensor), and the tile API (`set_weights`,
`update`: arbitrary new tile memory; scale changes). -/
def exec (t : TileDim) (c : Cmd) (s : CS) : Except PyErr Unit × CS :=
  match c with
  | .setMode m => pyOk (setMode t m s)
  | .setModeInvalid => pyErr .valueError s
  | .getData junk => getData t junk s
  | .getDataMethod => getDataMethod t s
  | .call fn args outs junk => torchCall t fn args outs junk s
  | .requiresGrad v => pyOk { s with reqGrad := v }
  | .setItem a v => setItem a v s
  | .assignData => pyErr .runtimeError s
  | .copy => pyOk { s with held := s.held ++ [⟨0, List.range (t.d * t.x), .plain⟩] }
  | .tileWrite w => pyOk { s with heap := fun k => if k = 0 then w else s.heap k }
  | .setScales sc => pyOk { s with scales := sc }

def run (t : TileDim) : List Cmd → CS → CS
  | [], s => s
  | c :: cs, s => run t cs (exec t c s).2

/-- The results (exception or not) of all operations. -/
def results (t : TileDim) : List Cmd → CS → List (Except PyErr Unit)
  | [], _ => []
  | c :: cs, s => (exec t c s).1 :: results t cs (exec t c s).2

/-- A freshly created context (context.py:137-148): placeholder mode; `w` is the tile memory. -/
def initCS (w : List ℚ) (scales : Option (List ℚ)) : CS where
  heap := fun k => if k = 0 then w else []
  next := 1
  mode := .placeholder
  buf := none
  scales := scales
  reqGrad := true
  held := []

end Aihw.Optim.Context
