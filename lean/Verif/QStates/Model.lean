import Verif.Quant.Manager

/-!
# C86: switching the quantization states of a model
(nn/low_precision_modules/quantization_states.py; the methods of `QuantizedModel` in
simulator/digital_low_precision/base_quantized_model.py:18-117 are the same functions)

* Modules are objects in a heap; the model is the tree of its modules, in which the same module may occur
  several times.  Of an object only what the functions read and write is kept: the flags and the parameter
  cache of a `QuantizedModule`, and state, initialisation and estimator of a `QuantizationManager`.
-/
namespace Aihw.QStates
open Aihw Aihw.Quant

/-- The part of a `QuantizedModule` (base_quantized_classes.py:39-90): the attributes `weight_quantizer` and
`activation_quantizer` are module objects, if present. -/
structure QMod where
  quantW : Bool
  quantA : Bool
  cached : Bool
  bitsW : ℤ
  bitsA : ℤ
  wq : Option Nat
  aq : Option Nat
  deriving DecidableEq

/-- The part of a `QuantizationManager`: state, whether the quantizer is initialised, and whether there is a
range estimator (there is none if the range was given). -/
structure Man where
  st : QSt
  init : Bool
  est : Bool
  deriving DecidableEq

/-- A module object: `fp32` is `FP32Acts` (base_quantized_classes.py:168-173), `plain` any other module. -/
inductive Obj where
  | plain
  | fp32
  | qmod (q : QMod)
  | man (m : Man)
  deriving DecidableEq

/-- The objects. -/
abbrev Heap := Nat → Obj

/-- `h[i] = o`. -/
def setObj (h : Heap) (i : Nat) (o : Obj) : Heap := fun j => if j = i then o else h j

/-- The tree of modules. -/
inductive Tree where
  | node (id : Nat) (kids : List Tree)

/-- The object of a module. -/
def Tree.id : Tree → Nat
  | .node i _ => i

mutual
/-- The order of `Module.apply(fn)` of torch: first the children, then the module. -/
def visit : Tree → List Nat
  | .node i ks => visitKids [] ks ++ [i]
/-- `children()`: every object once. -/
def visitKids (seen : List Nat) : List Tree → List Nat
  | [] => []
  | t :: ts => if t.id ∈ seen then visitKids seen ts else visit t ++ visitKids (t.id :: seen) ts
end

/-- `quantized_weights` / `full_precision_weights` of a module (base_quantized_classes.py:97-103). -/
def setW (on : Bool) (q : QMod) : QMod := { q with quantW := on, cached := false }

/-- `quantized_acts` / `full_precision_acts` of a module (base_quantized_classes.py:105-109). -/
def setA (on : Bool) (q : QMod) : QMod := { q with quantA := on }

/-- `if isinstance(layer, QuantizedModule)`. -/
def onQ (f : QMod → QMod) (h : Heap) (i : Nat) : Heap :=
  match h i with
  | .qmod q => setObj h i (.qmod (f q))
  | _ => h

/-- `_set_layer_*` (base_quantized_classes.py:14-35): `fix` and `learn` only if the quantizer is
initialised. -/
def setSt (s : QSt) (m : Man) : Man :=
  if (s = .fix ∨ s = .learn) ∧ m.init = false then m else { m with st := s }

/-- `_set_layer_*` on an object. -/
def onM (s : QSt) (h : Heap) (i : Nat) : Heap :=
  match h i with
  | .man m => setObj h i (.man (setSt s m))
  | _ => h

/-- `fix_act_ranges`, `estimate_act_ranges` (quantization_states.py:159-163, 212-216). -/
def onAct (s : QSt) (h : Heap) (i : Nat) : Heap :=
  match h i with
  | .qmod q => match q.aq with
    | some j => onM s h j
    | none => h
  | _ => h

/-- `fix_weight_ranges` (quantization_states.py:176-180). -/
def onWeight (s : QSt) (h : Heap) (i : Nat) : Heap :=
  match h i with
  | .qmod q => match q.wq with
    | some j => onM s h j
    | none => h
  | _ => h

/-- `reset_ranges()` of an object (quantization_manager.py:120-123; base_quantized_classes.py:172-173): without an
estimator, or for a module of another kind, there is no such attribute. -/
def resetObj (h : Heap) (j : Nat) : Except PyErr Heap :=
  match h j with
  | .man m => if m.est then .ok (setObj h j (.man { m with st := .estimateTrain, init := false }))
    else .error .attributeError
  | .fp32 => .ok h
  | _ => .error .attributeError

/-- `reset_act_ranges` (quantization_states.py:240-244). -/
def onReset (h : Heap) (i : Nat) : Except PyErr Heap :=
  match h i with
  | .qmod q => match q.aq with
    | some j => resetObj h j
    | none => .ok h
  | _ => .ok h

/-- The functions. -/
inductive Cmd where
  /-- `quantized_weights` / `full_precision_weights` -/
  | weights (on : Bool)
  /-- `quantized_acts` / `full_precision_acts` -/
  | acts (on : Bool)
  /-- `quantized` / `full_precision` -/
  | both (on : Bool)
  /-- `set_quant_state(weight_quant, act_quant)` -/
  | set (w a : Bool)
  /-- `enable_quant_states` -/
  | enable
  /-- `learn_ranges`, `fix_ranges`, `estimate_ranges`, `estimate_ranges_train` -/
  | ranges (s : QSt)
  /-- `fix_act_ranges` -/
  | fixActs
  /-- `fix_weight_ranges` -/
  | fixWeights
  /-- `estimate_act_ranges` -/
  | estimateActs
  /-- `reset_act_ranges` -/
  | resetActs
  deriving DecidableEq

/-- `_fn` of `enable_quant_states` (quantization_states.py:279-289). -/
def enableOne (q : QMod) : QMod :=
  let q := if 0 < q.bitsW then setW true q else setW false q
  if 0 < q.bitsA then setA true q else setA false q

/-- `model.apply(fn)`. -/
def applyAll (t : Tree) (f : Heap → Nat → Heap) (h : Heap) : Heap := (visit t).foldl f h

/-- A call (quantization_states.py:26-291). -/
def exec (t : Tree) (h : Heap) : Cmd → Except PyErr Heap
  | .weights on => .ok (applyAll t (onQ (setW on)) h)
  | .acts on => .ok (applyAll t (onQ (setA on)) h)
  | .both on => .ok (applyAll t (onQ fun q => setA on (setW on q)) h)
  | .set w a => .ok (applyAll t (onQ (setW w)) (applyAll t (onQ (setA a)) h))
  | .enable => .ok (applyAll t (onQ enableOne) h)
  | .ranges s => .ok (applyAll t (onM s) h)
  | .fixActs => .ok (applyAll t (onAct .fix) h)
  | .fixWeights => .ok (applyAll t (onWeight .fix) h)
  | .estimateActs => .ok (applyAll t (onAct .estimate) h)
  | .resetActs => (visit t).foldlM onReset h

/-- Several calls. -/
def execAll (t : Tree) : Heap → List Cmd → Except PyErr Heap
  | h, [] => .ok h
  | h, c :: cs => match exec t h c with
    | .error e => .error e
    | .ok h => execAll t h cs

end Aihw.QStates
