import Verif.Common

/-!
# `convert_to_quantized`

Models nn/low_precision_conversion.py:26-159, nn/low_precision_modules/conversion_utils.py:24-138,
quantized_base_modules.py:27-96, quantized_input_module.py:21-46 and `enable_quant_states`
(quantization_states.py:269-290).

A model is a tree of module objects.  Every slot of a module carries the identity of the object in it,
so that the same object may be registered under several names of one parent.

Simplifications (stated once):
* a module object that is *recursed into* is not shared between different parents (objects which are
  replaced, or left alone, may be: replacing does not touch the object);
* slots holding `None` are not represented (`named_children` skips them);
* the quantizers of a quantized layer are part of its configuration, not children;
* a tensor is a value, the quantized layer gets the tensor of the original (`.data`, an alias);
* constructors given by the user for other classes are arbitrary functions (`custom`, `userBuild`)
  which do not change the module they are given;
* `convert_to_digital` of one analog layer is an arbitrary function here (modelled in `Convert`);
* devices and dtypes are not modelled.
-/
namespace Aihw.QConvert

/-- The keys of `DEFAULT_CONVERSIONS` (conversion_utils.py:28-33). -/
inductive Kind where
  | linear | layerNorm | embedding | conv2d
  deriving DecidableEq

/-- The class of a module: the four torch classes, their quantized counterparts, the input wrapper
and its quantizer, a quantizer or range estimator (`LEAF_MODULES`), a subclass of `AnalogLayerBase`,
any other class. -/
inductive Cls where
  | torch (k : Kind)
  | quant (k : Kind)
  | inputModule
  | quantActivation
  | leaf (n : Nat)
  | analog (n : Nat)
  | other (n : Nat)
  deriving DecidableEq

inductive PadMode where
  | zeros | reflect | replicate | circular
  deriving DecidableEq

/-- The attributes of a module apart from its parameters. -/
inductive Attrs where
  | linear (inF outF : Nat)
  | layerNorm (shape : List Nat) (eps : ℚ) (affine : Bool)
  | embedding (num dim : Nat) (padIdx : Option Int) (maxNorm : Option ℚ) (normType : ℚ)
      (byFreq sparse : Bool)
  | conv2d (cin cout : Nat) (kernel stride padding dilation : List Nat) (groups : Nat)
      (mode : PadMode)
  | opaque (n : Nat)
  deriving DecidableEq

/-- `QuantizationConfig`: the bits of activations and weights, and the rest of both parts. -/
structure QCfg where
  bitsA : Int
  bitsW : Int
  restA : Nat
  restW : Nat
  deriving DecidableEq

/-- The state of a `QuantizedModule` (base_quantized_classes.py:45-92). -/
structure QState where
  cfg : QCfg
  quantW : Bool
  quantA : Bool
  deriving DecidableEq

/-- What a module object holds, without its children. -/
structure Val (T : Type) where
  attrs : Attrs
  weight : Option T
  bias : Option T
  training : Bool
  requiresGrad : Bool
  q : Option QState
  deriving DecidableEq

mutual
/-- A module object. -/
inductive Mod (T : Type) where
  | node (cls : Cls) (val : Val T) (kids : Kids T)
/-- The `_modules` dictionary in order: name, identity of the object, object. -/
inductive Kids (T : Type) where
  | nil
  | cons (name : String) (id : Nat) (m : Mod T) (rest : Kids T)
end

variable {T : Type}

def Mod.cls : Mod T → Cls | .node c _ _ => c
def Mod.val : Mod T → Val T | .node _ v _ => v
def Mod.kids : Mod T → Kids T | .node _ _ ks => ks

/-- `QuantizedModuleConfig` (simulator/parameters/quantization.py:227-234). -/
structure QModCfg where
  target : Cls
  cfg : QCfg
  deriving DecidableEq

/-- `QuantizationMap` (simulator/parameters/quantization.py:237-325). -/
structure QMap where
  default : QCfg
  byClass : List (Cls × QModCfg)
  byName : List (String × QModCfg)
  inputs : List (String × QCfg)
  excluded : List String

/-- `dic[key]` / `key in dic`. -/
def find {α β : Type} [DecidableEq α] (a : α) : List (α × β) → Option β
  | [] => none
  | (k, v) :: l => if k = a then some v else find a l

/-- What a constructor call of a default conversion receives (`get_module_args`). -/
structure Args where
  attrs : Attrs
  bias : Bool
  deriving DecidableEq

/-- The classes given by the user and the torch initialisation: `init attrs` are the initial
parameters of a newly constructed torch module of these attributes, `userBuild` the constructors of
other classes called with the arguments of a default conversion, `custom` the constructors called
with the module, `digital` is `convert_to_digital` of an analog layer. -/
structure Env (T : Type) where
  init : Attrs → T × T
  userBuild : Cls → Args → QCfg → Except PyErr (Mod T)
  custom : Cls → Mod T → QMap → QCfg → Except PyErr (Mod T)
  digital : Mod T → Except PyErr (Mod T)

/-- `get_module_args` (conversion_utils.py:61-138): for a LayerNorm only the shape and `eps`; no
`bias` argument for LayerNorm (a bias is made) and Embedding (there is none). -/
def getArgs (k : Kind) (v : Val T) : Args :=
  match k, v.attrs with
  | .linear, a => ⟨a, v.bias.isSome⟩
  | .layerNorm, .layerNorm s e _ => ⟨.layerNorm s e true, true⟩
  | .layerNorm, a => ⟨a, true⟩
  | .embedding, a => ⟨a, false⟩
  | .conv2d, a => ⟨a, v.bias.isSome⟩

/-- The kind of layer that arguments describe. -/
def Attrs.kind : Attrs → Option Kind
  | .linear .. => some .linear
  | .layerNorm .. => some .layerNorm
  | .embedding .. => some .embedding
  | .conv2d .. => some .conv2d
  | .opaque _ => none

/-- The constructor of a quantized class (quantized_base_modules.py:27-96, hijacker.py:39-69,
base_quantized_classes.py:45-92): keyword arguments of another class raise `TypeError`; a new module
is in training mode, its parameters require gradients and are freshly initialised, nothing is
quantized yet. -/
def build (E : Env T) (c : Cls) (a : Args) (cfg : QCfg) : Except PyErr (Mod T) :=
  match c with
  | .quant k =>
    if a.attrs.kind = some k then
      .ok (.node (.quant k)
        ⟨a.attrs, some (E.init a.attrs).1, if a.bias then some (E.init a.attrs).2 else none,
         true, true, some ⟨cfg, false, false⟩⟩ .nil)
    else .error .typeError
  | c => E.userBuild c a cfg

/-- `quant_model.weight.data = model.weight.data`, then the bias if the original has one
(low_precision_conversion.py:118-120, 132-134): `None.data` raises `AttributeError`. -/
def setTensors (orig : Val T) : Mod T → Except PyErr (Mod T)
  | .node c v ks =>
    match orig.weight, v.weight with
    | some w, some _ =>
      match orig.bias, v.bias with
      | none, _ => .ok (.node c { v with weight := some w } ks)
      | some b, some _ => .ok (.node c { v with weight := some w, bias := some b } ks)
      | some _, none => .error .attributeError
    | _, _ => .error .attributeError

/-- Build the counterpart and hand over the tensors (low_precision_conversion.py:112-120). -/
def buildFrom (E : Env T) (k : Kind) (v : Val T) (mc : QModCfg) : Except PyErr (Mod T) :=
  match build E mc.target (getArgs k v) mc.cfg with
  | .error e => .error e
  | .ok q => setTensors v q

/-- The analog branch (low_precision_conversion.py:121-134). -/
def buildAnalog (E : Env T) (m : Mod T) (mc : QModCfg) : Except PyErr (Mod T) :=
  match E.digital m with
  | .error e => .error e
  | .ok (.node (.torch .linear) v _) => buildFrom E .linear v mc
  | .ok (.node (.torch .conv2d) v _) => buildFrom E .conv2d v mc
  | .ok _ => .error .assertion

/-- What `quantize_model` returns: `None`, the module it was given (possibly with new children), or a
new module. -/
inductive Out (T : Type) where
  | skip
  | same (m : Mod T)
  | fresh (m : Mod T)

/-- A selected module (low_precision_conversion.py:97-143). -/
def convertSelf (E : Env T) (qm : QMap) (mc : QModCfg) (m : Mod T) : Except PyErr (Out T) :=
  if 0 < mc.cfg.bitsA ∨ 0 < mc.cfg.bitsW then
    match m.cls with
    | .torch k => (buildFrom E k m.val mc).map .fresh
    | .analog _ => (buildAnalog E m mc).map .fresh
    | _ => (E.custom mc.target m qm mc.cfg).map .fresh
  else .ok (.same m)

/-- The entry for a module: by its name, else by its class (low_precision_conversion.py:90-100). -/
def select (qm : QMap) (nm : String) (c : Cls) : Option QModCfg :=
  match find nm qm.byName with
  | some mc => some mc
  | none => find c qm.byClass

/-- `model_name + "." + name if model_name else name` (low_precision_conversion.py:148). -/
def fullName (nm n : String) : String := if nm = "" then n else nm ++ "." ++ n

def Cls.isLeaf : Cls → Bool
  | .leaf _ => true
  | _ => false

/-- `QuantizedInputModule(new_mod, config)` (quantized_input_module.py:33-41).  The quantizer gets no
`n_bits`, which is then 8 (base_quantized_classes.py:51). -/
def wrapInput (cfg : QCfg) (m : Mod T) : Mod T :=
  .node .inputModule ⟨.opaque 0, none, none, true, true, none⟩
    (.cons "module" 0 m
      (.cons "input_quantizer" 1
        (.node .quantActivation
          ⟨.opaque 0, none, none, true, true, some ⟨{ cfg with bitsW := 8 }, false, false⟩⟩ .nil)
        .nil))

/-- The wrapper if the name has an entry (low_precision_conversion.py:155-158). -/
def wrapIf (qm : QMap) (f : String) (m : Mod T) : Mod T :=
  match find f qm.inputs with
  | some cfg => wrapInput cfg m
  | none => m

/-- The new content of the slot (low_precision_conversion.py:152-159). -/
def slotOf (qm : QMap) (f : String) (m : Mod T) : Out T → Mod T
  | .skip => m
  | .same m' => wrapIf qm f m'
  | .fresh m' => wrapIf qm f m'

/-- What the visited object itself is afterwards: only the module returned as such changed. -/
def after (m : Mod T) : Out T → Mod T
  | .same m' => m'
  | _ => m

mutual
/-- `quantize_model` (low_precision_conversion.py:53-159). -/
def quantizeModel (E : Env T) (qm : QMap) : String → Mod T → Except PyErr (Out T)
  | nm, .node c v ks =>
    if nm ∈ qm.excluded then .ok .skip
    else if c.isLeaf then .ok .skip
    else
      match select qm nm c with
      | some mc => convertSelf E qm mc (.node c v ks)
      | none => (quantizeKids E qm nm [] ks).map fun ks' => .same (.node c v ks')
/-- The loop over `named_children` (low_precision_conversion.py:147-159): an object already seen under
an earlier name is not visited; its slot still holds that object (`seen`, as it is now). -/
def quantizeKids (E : Env T) (qm : QMap) : String → List (Nat × Mod T) → Kids T →
    Except PyErr (Kids T)
  | _, _, .nil => .ok .nil
  | nm, seen, .cons n i m rest =>
    match find i seen with
    | some m' => (quantizeKids E qm nm seen rest).map (.cons n i m')
    | none =>
      if fullName nm n ∈ qm.excluded then
        (quantizeKids E qm nm ((i, m) :: seen) rest).map (.cons n i m)
      else
        match quantizeModel E qm (fullName nm n) m with
        | .error e => .error e
        | .ok o =>
          (quantizeKids E qm nm ((i, after m o) :: seen) rest).map
            (.cons n i (slotOf qm (fullName nm n) m o))
end

/-- `_fn` of `enable_quant_states` (quantization_states.py:279-289). -/
def enableVal (v : Val T) : Val T :=
  match v.q with
  | none => v
  | some s =>
    { v with q := some { s with quantW := decide (0 < s.cfg.bitsW), quantA := decide (0 < s.cfg.bitsA) } }

mutual
/-- `model.apply(_fn)`. -/
def enableMod : Mod T → Mod T
  | .node c v ks => .node c (enableVal v) (enableKids ks)
def enableKids : Kids T → Kids T
  | .nil => .nil
  | .cons n i m rest => .cons n i (enableMod m) (enableKids rest)
end

/-- `convert_to_quantized` (low_precision_conversion.py:26-50): `enable_quant_states(None)` raises
`AttributeError`.  The model given is deep copied and stays as it is. -/
def convertToQuantized (E : Env T) (qm : QMap) (m : Mod T) : Except PyErr (Mod T) :=
  match quantizeModel E qm "" m with
  | .error e => .error e
  | .ok .skip => .error .attributeError
  | .ok (.same m') => .ok (enableMod m')
  | .ok (.fresh m') => .ok (enableMod m')

/-- The items of `DEFAULT_CONVERSIONS` in order. -/
def defaultKinds : List Kind := [.linear, .layerNorm, .embedding, .conv2d]

/-- `append_default_conversions` (conversion_utils.py:38-58). -/
def appendDefaults (qm : QMap) : QMap :=
  defaultKinds.foldl (fun qm k =>
    match find (Cls.torch k) qm.byClass with
    | some _ => qm
    | none => { qm with byClass := qm.byClass ++ [(.torch k, ⟨.quant k, qm.default⟩)] }) qm

/-! ## What the layers compute -/

/-- The attributes which the forward pass of the quantized class uses: the padding mode of a
convolution is ignored (quantized_base_modules.py:36-52), the others use all of theirs. -/
def runAttrs : Attrs → Attrs
  | .conv2d i o k s p d g _ => .conv2d i o k s p d g .zeros
  | a => a

/-- `QuantizationHijacker.forward` of a newly built layer (hijacker.py:71-98, 105-127): `F` is the torch
function of the attributes, `qW` / `qA` what the weight and activation quantizers do.  An embedding
does not quantize its output (quantized_base_modules.py:77-82). -/
def quantForward {X Y : Type} (F : Attrs → T → Option T → X → Y) (qW : QCfg → T → T)
    (qA : QCfg → Y → Y) (k : Kind) (v : Val T) (x : X) : Option Y :=
  match v.q, v.weight with
  | some s, some w =>
    let y := F (runAttrs v.attrs) (if s.quantW then qW s.cfg w else w) v.bias x
    some (if s.quantA && k ≠ .embedding then qA s.cfg y else y)
  | _, _ => none

end Aihw.QConvert
