import Verif.Common

/-!
# C79, C80: the AIHW Composer converters (cloud/converter/v1)

Experiments to and from protobuf messages: mappings.py and training.py (`Kind.training`), i_mappings.py
and inferencing.py (`Kind.inference`).

* Protobuf messages are records of the fields that are written and read; the fields are those of the
  descriptors in cloud/converter/definitions.  `f32` is the conversion of a Python float to the 32-bit
  float field and back.  The byte serialization of messages is not modelled.
* Python layers are the class and the attributes that its constructor sets; weights are not modelled
  (they are not part of the messages).  `dflt name` is a new object of the library configuration `name`.
* The UTF-8 encoding of names is the identity.
-/
namespace Aihw.Cloud
open Aihw

/-- Exceptions: those of Python, `ConversionError` (cloud/converter/exceptions.py) and
`NoiseModelDeviceIDException` (rpu_config_info.py:33-34). -/
inductive Err where
  | py (e : PyErr)
  | conversion
  | deviceId
  deriving DecidableEq

/-- Python values of constructor arguments and attributes; `ints` is a tuple or list of integers and
`param` a tensor parameter. -/
inductive Val where
  | none
  | int (i : ℤ)
  | bool (b : Bool)
  | float (q : ℚ)
  | str (s : String)
  | ints (l : List ℤ)
  | param
  deriving DecidableEq

/-- `bool(v)`. -/
def truthy : Val → Bool
  | .none => false
  | .int i => i ≠ 0
  | .bool b => b
  | .float q => q ≠ 0
  | .str s => s ≠ ""
  | .ints l => !l.isEmpty
  | .param => true

/-- The layer and activation classes in the mappings, and any other class. -/
inductive Cls where
  | analogConv2d | analogConv2dMapped | analogLinear | analogLinearMapped
  | batchNorm2d | conv2d | convTranspose2d | flatten | linear | maxPool2d
  | leakyReLU | logSigmoid | logSoftmax | reLU | sigmoid | softmax | tanh
  | other (n : Nat)
  deriving DecidableEq

/-- The class of a configuration: a library class or a class of the user. -/
inductive CfgCls where
  | known (name : String)
  | user (n : Nat)
  deriving DecidableEq

/-- The noise model of a configuration, as far as it is set (rpu_config_info.py:172-213). -/
inductive Noise where
  | pcm (gMax : ℚ) (coeff : List ℚ) (prog read drift : ℚ)
  | generic (gMax : ℚ) (coeff : List ℚ) (nuMean nuStd prog read drift : ℚ)
  | default
  deriving DecidableEq

/-- A configuration, as far as it is used.  `stray` is an attribute `weights_scaling_omega` of the
mapping parameters (a name that no other code reads). -/
structure Cfg where
  cls : CfgCls
  omega : ℚ
  stray : Option ℚ
  digitalBias : Bool
  outNoise : ℚ
  outRes : ℚ
  inpRes : ℚ
  noise : Noise
  driftComp : Bool
  deriving DecidableEq

/-- A layer: class, attributes, and for analog layers the configuration of the first tile. -/
structure Obj where
  cls : Cls
  attrs : List (String × Val)
  cfg : Option Cfg
  deriving DecidableEq

/-- `d.get(k)`. -/
def get {α : Type} (d : List (String × α)) (k : String) : Option α := (d.find? fun p => p.1 = k).map (·.2)

/-- `d[k] = v`. -/
def put {α : Type} (d : List (String × α)) (k : String) (v : α) : List (String × α) :=
  if d.any fun p => p.1 = k then d.map fun p => if p.1 = k then (k, v) else p else d ++ [(k, v)]

/-! ## Constructors -/

/-- The analog classes. -/
def Cls.isAnalog : Cls → Bool
  | .analogConv2d | .analogConv2dMapped | .analogLinear | .analogLinearMapped => true
  | _ => false

/-- Convolutions: nn/modules/conv.py:424-445, nn/modules/conv_mapped.py:583-604 and torch. -/
def convSig : List (String × Option Val) :=
  [("in_channels", none), ("out_channels", none), ("kernel_size", none), ("stride", some (.int 1)),
    ("padding", some (.int 0)), ("dilation", some (.int 1)), ("groups", some (.int 1)),
    ("bias", some (.bool true)), ("padding_mode", some (.str "zeros"))]

/-- Linear layers: nn/modules/linear.py:43-50 and torch. -/
def linSig : List (String × Option Val) :=
  [("in_features", none), ("out_features", none), ("bias", some (.bool true))]

/-- Arguments and defaults of the constructors (torch.nn and aihwkit.nn), without `rpu_config`,
`tile_module_class`, `use_indexed`, `device` and `dtype`. -/
def sig : Cls → List (String × Option Val)
  | .analogConv2d => convSig
  | .analogConv2dMapped => convSig
  | .analogLinear => linSig
  | .analogLinearMapped => linSig
  | .batchNorm2d => [("num_features", none), ("eps", some (.float (1 / 100000))),
      ("momentum", some (.float (1 / 10))), ("affine", some (.bool true)),
      ("track_running_stats", some (.bool true))]
  | .conv2d => convSig
  | .convTranspose2d => convSig ++ [("output_padding", some (.int 0))]
  | .flatten => [("start_dim", some (.int 1)), ("end_dim", some (.int (-1)))]
  | .linear => linSig
  | .maxPool2d => [("kernel_size", none), ("stride", some .none), ("padding", some (.int 0)),
      ("dilation", some (.int 1)), ("return_indices", some (.bool false)),
      ("ceil_mode", some (.bool false))]
  | .leakyReLU => [("negative_slope", some (.float (1 / 100))), ("inplace", some (.bool false))]
  | .logSigmoid => []
  | .logSoftmax => [("dim", some .none)]
  | .reLU => [("inplace", some (.bool false))]
  | .sigmoid => []
  | .softmax => [("dim", some .none)]
  | .tanh => []
  | .other _ => []

/-- Two-dimensional convolution arguments are made pairs (`_pair`, nn/modules/conv.py:439-442). -/
def isPair : Cls → String → Bool
  | .analogConv2d, n | .analogConv2dMapped, n | .conv2d, n | .convTranspose2d, n =>
    n = "kernel_size" || n = "stride" || n = "padding" || n = "dilation" || n = "output_padding"
  | _, _ => false

/-- `_pair(v)`. -/
def pair : Val → Val
  | .int i => .ints [i, i]
  | v => v

/-- The attribute `bias`: a flag in `AnalogLinear` (nn/modules/linear.py:74) and `AnalogConv2d`
(nn/modules/conv.py:104), a parameter or `None` in the others. -/
def biasAttr (c : Cls) (v : Val) : Val :=
  match c with
  | .analogConv2d | .analogLinear | .analogLinearMapped => v
  | _ => if truthy v then .param else .none

/-- The attribute set from an argument. -/
def norm (c : Cls) (n : String) (v : Val) : Val :=
  if n = "bias" then biasAttr c v else if isPair c n then pair v else v

/-- The attribute from the argument or the default. -/
def attrOf (c : Cls) (kw : List (String × Val)) (p : String × Option Val) : Except Err (String × Val) :=
  match (get kw p.1).orElse fun _ => p.2 with
  | some v => .ok (p.1, norm c p.1 v)
  | none => .error (.py .typeError)

/-- `stride or kernel_size` of `MaxPool2d`: a missing stride is the kernel size. -/
def poolStride (c : Cls) (a : List (String × Val)) : List (String × Val) :=
  if c = .maxPool2d ∧ get a "stride" = some .none then
    put a "stride" ((get a "kernel_size").getD .none)
  else a

/-- Checks of the analog constructors: one group and zero padding (nn/modules/conv.py:46-49,
conv_mapped.py:46-49), digital bias (conv_mapped.py:81-82). -/
def checks (c : Cls) (kw : List (String × Val)) (cfg : Option Cfg) : Except Err Unit :=
  if (c = .analogConv2d ∨ c = .analogConv2dMapped) ∧
      ((get kw "groups").getD (.int 1) ≠ .int 1 ∨
        (get kw "padding_mode").getD (.str "zeros") ≠ .str "zeros") then .error (.py .valueError)
  else if c = .analogConv2dMapped ∧ truthy ((get kw "bias").getD (.bool true)) = true ∧
      (cfg.map (·.digitalBias)) = some false then .error (.py .analogBias)
  else .ok ()

/-- The configuration of a new layer: without the argument, analog layers take `SingleRPUConfig()`
(nn/modules/linear.py:55-59, conv.py:71-75, conv_mapped.py:70-74). -/
def cfgArg (dflt : String → Cfg) (c : Cls) (cfg : Option Cfg) : Option Cfg :=
  if c.isAnalog then some (cfg.getD (dflt "SingleRPUConfig")) else none

/-- A keyword argument that the constructor does not know. -/
def unknownArg (c : Cls) (kw : List (String × Val)) (cfg : Option Cfg) : Prop :=
  (∃ p ∈ kw, p.1 ∉ (sig c).map (·.1)) ∨ (cfg.isSome = true ∧ c.isAnalog = false)

instance (c : Cls) (kw : List (String × Val)) (cfg : Option Cfg) : Decidable (unknownArg c kw cfg) := by
  unfold unknownArg; infer_instance

/-- `cls(**kwargs)`: `cfg` is the argument `rpu_config`.  (Errors inside torch for impossible sizes are
not modelled.) -/
def make (dflt : String → Cfg) (c : Cls) (kw : List (String × Val)) (cfg : Option Cfg) :
    Except Err Obj :=
  if unknownArg c kw cfg then .error (.py .typeError)
  else do
    let a ← (sig c).mapM (attrOf c kw)
    let _ ← checks c kw (cfgArg dflt c cfg)
    .ok ⟨c, poolStride c a, cfgArg dflt c cfg⟩

/-! ## Mappings -/

/-- The two formats. -/
inductive Kind where
  | training
  | inference
  deriving DecidableEq

/-- Types of arguments (mappings.py:63-81, i_mappings.py:53-72); lists are always of integers. -/
inductive Ty where
  | int | bool | str | float | ints
  deriving DecidableEq

/-- Arguments of a convolution in the mappings. -/
def convArgs : List (String × Ty) :=
  [("in_channels", .int), ("out_channels", .int), ("kernel_size", .ints), ("stride", .ints),
    ("padding", .ints), ("dilation", .ints)]

/-- Arguments of a linear layer in the mappings. -/
def linArgs : List (String × Ty) := [("in_features", .int), ("out_features", .int)]

/-- The last arguments of an analog layer: the training format also has `weight_scaling_omega`. -/
def analogArgs (k : Kind) : List (String × Ty) :=
  [("bias", .bool), ("rpu_config", .str)] ++
    if k = .training then [("weight_scaling_omega", .float)] else []

/-- `Mappings.layers` (mappings.py:196-253, i_mappings.py:182-249); the mapped layers exist in the
inference format only. -/
def layerArgs (k : Kind) : Cls → Option (List (String × Ty))
  | .analogConv2d => some (convArgs ++ analogArgs k)
  | .analogConv2dMapped => if k = .inference then some (convArgs ++ analogArgs k) else none
  | .analogLinear => some (linArgs ++ analogArgs k)
  | .analogLinearMapped => if k = .inference then some (linArgs ++ analogArgs k) else none
  | .batchNorm2d => some [("num_features", .int)]
  | .conv2d => some (convArgs ++ [("bias", .bool)])
  | .convTranspose2d => some [("in_channels", .int), ("out_channels", .int), ("kernel_size", .ints),
      ("stride", .ints), ("padding", .ints), ("output_padding", .ints), ("dilation", .ints),
      ("bias", .bool)]
  | .flatten => some []
  | .linear => some (linArgs ++ [("bias", .bool)])
  | .maxPool2d => some [("kernel_size", .int), ("stride", .int), ("padding", .int), ("dilation", .int),
      ("ceil_mode", .bool)]
  | _ => none

/-- `Mappings.activation_functions` (mappings.py:255-263, i_mappings.py:251-259). -/
def actArgs : Cls → Option (List (String × Ty))
  | .leakyReLU => some [("negative_slope", .float)]
  | .logSigmoid => some []
  | .logSoftmax => some [("dim", .int)]
  | .reLU => some []
  | .sigmoid => some []
  | .softmax => some [("dim", .int)]
  | .tanh => some []
  | _ => none

/-- The identifiers in the mappings, which are the class names. -/
def Cls.id : Cls → String
  | .analogConv2d => "AnalogConv2d"
  | .analogConv2dMapped => "AnalogConv2dMapped"
  | .analogLinear => "AnalogLinear"
  | .analogLinearMapped => "AnalogLinearMapped"
  | .batchNorm2d => "BatchNorm2d"
  | .conv2d => "Conv2d"
  | .convTranspose2d => "ConvTranspose2d"
  | .flatten => "Flatten"
  | .linear => "Linear"
  | .maxPool2d => "MaxPool2d"
  | .leakyReLU => "LeakyReLU"
  | .logSigmoid => "LogSigmoid"
  | .logSoftmax => "LogSoftmax"
  | .reLU => "ReLU"
  | .sigmoid => "Sigmoid"
  | .softmax => "Softmax"
  | .tanh => "Tanh"
  | .other _ => ""

/-- The classes of the library. -/
def allCls : List Cls :=
  [.analogConv2d, .analogConv2dMapped, .analogLinear, .analogLinearMapped, .batchNorm2d, .conv2d,
    .convTranspose2d, .flatten, .linear, .maxPool2d, .leakyReLU, .logSigmoid, .logSoftmax, .reLU,
    .sigmoid, .softmax, .tanh]

/-- `InverseMappings.layers` and `InverseMappings.activation_functions` (mappings.py:295-313,
i_mappings.py:277-293). -/
def inverse (args : Cls → Option (List (String × Ty))) (id : String) : Option Cls :=
  allCls.find? fun c => (args c).isSome && c.id = id

/-- `Mappings.presets` (mappings.py:274-292, i_mappings.py:270-274): class name and identifier agree. -/
def presets : Kind → List String
  | .training => ["ReRamESPreset", "ReRamSBPreset", "CapacitorPreset", "EcRamPreset", "IdealizedPreset",
      "PCMPreset", "MixedPrecisionReRamESPreset", "MixedPrecisionReRamSBPreset",
      "MixedPrecisionCapacitorPreset", "MixedPrecisionEcRamPreset", "MixedPrecisionIdealizedPreset",
      "MixedPrecisionPCMPreset", "TikiTakaReRamESPreset", "TikiTakaReRamSBPreset",
      "TikiTakaCapacitorPreset", "TikiTakaEcRamPreset", "TikiTakaIdealizedPreset"]
  | .inference => ["InferenceRPUConfig", "OldWebComposerInferenceRPUConfig",
      "WebComposerInferenceRPUConfig"]

/-- `Mappings.presets[type(rpu_config)]`. -/
def presetName (k : Kind) : CfgCls → Option String
  | .known n => if n ∈ presets k then some n else none
  | .user _ => none

/-! ## Messages -/

/-- `AttributeProto` (definitions/i_onnx_common_pb2.py:16). -/
structure Attr where
  name : String
  type : Ty
  f : ℚ := 0
  i : ℤ := 0
  s : String := ""
  b : Bool := false
  ints : List ℤ := []
  deriving DecidableEq

/-- `LayerProto` and `ActivationFunctionProto` in `LayerOrActivationFunction`
(definitions/i_common_pb2.py:19). -/
inductive Item where
  | layer (id : String) (args : List Attr)
  | act (id : String) (args : List Attr)
  deriving DecidableEq

/-- A 64-bit integer field. -/
def in64 (i : ℤ) : Bool := -2 ^ 63 ≤ i && i < 2 ^ 63

/-- A 32-bit integer field. -/
def in32 (i : ℤ) : Bool := -2 ^ 31 ≤ i && i < 2 ^ 31

/-- The integer of an `int` or `bool` object. -/
def asInt : Val → Option ℤ
  | .int i => some i
  | .bool b => some (if b then 1 else 0)
  | _ => none

/-- The value for a float field. -/
def asFloat : Val → Option ℚ
  | .float q => some q
  | .int i => some i
  | .bool b => some (if b then 1 else 0)
  | _ => none

/-- The value for a list field: a single integer is doubled (mappings.py:103-106). -/
def asInts : Val → Option (List ℤ)
  | .int i => some [i, i]
  | .bool b => some [if b then 1 else 0, if b then 1 else 0]
  | .ints l => some l
  | _ => none

/-- An attribute with a value (mappings.py:98-112, i_mappings.py:89-101). -/
def store (f32 : ℚ → ℚ) (name : String) (ty : Ty) (v : Val) : Except Err Attr :=
  match ty with
  | .int => match asInt v with
    | some i => if in64 i then .ok { name := name, type := ty, i := i } else .error (.py .valueError)
    | none => .error (.py .typeError)
  | .bool => match asInt v with
    | some i => .ok { name := name, type := ty, b := i ≠ 0 }
    | none => .error (.py .typeError)
  | .str => match v with
    | .str s => .ok { name := name, type := ty, s := s }
    | _ => .error (.py .attributeError)
  | .float => match asFloat v with
    | some q => .ok { name := name, type := ty, f := f32 q }
    | none => .error (.py .typeError)
  | .ints => match asInts v with
    | some l => if l.all in64 then .ok { name := name, type := ty, ints := l }
      else .error (.py .valueError)
    | none => .error (.py .typeError)

/-- `Function.get_field_value_to_proto`: a missing attribute is `None` (mappings.py:143-145). -/
def plainField (o : Obj) (n : String) : Val := (get o.attrs n).getD .none

/-- The configuration's name (mappings.py:163-170, i_mappings.py:152-160). -/
def cfgField (k : Kind) (o : Obj) : Except Err Val :=
  match o.cfg with
  | some c => match presetName k c.cls with
    | some n => .ok (.str n)
    | none => .error .conversion
  | none => .error (.py .attributeError)

/-- The omega of the mapping parameters (mappings.py:160-161). -/
def omegaField (o : Obj) : Except Err Val :=
  match o.cfg with
  | some c => .ok (.float c.omega)
  | none => .error (.py .attributeError)

/-- `LayerFunction.get_field_value_to_proto` (mappings.py:155-172, i_mappings.py:145-161). -/
def layerField (k : Kind) (o : Obj) (n : String) : Except Err Val :=
  if n = "bias" then .ok (.bool (decide (plainField o "bias" ≠ .none)))
  else if n = "weight_scaling_omega" ∧ k = .training then omegaField o
  else if n = "rpu_config" then cfgField k o
  else .ok (plainField o n)

/-- `to_proto` of one argument of a layer. -/
def layerAttr (f32 : ℚ → ℚ) (k : Kind) (o : Obj) (p : String × Ty) : Except Err Attr := do
  let v ← layerField k o p.1
  store f32 p.1 p.2 v

/-- `Function.to_proto` (mappings.py:91-115, i_mappings.py:82-106) for a layer. -/
def layerToProto (f32 : ℚ → ℚ) (k : Kind) (args : List (String × Ty)) (o : Obj) : Except Err Item := do
  let l ← args.mapM (layerAttr f32 k o)
  .ok (.layer o.cls.id l)

/-- `Function.to_proto` for an activation function. -/
def actToProto (f32 : ℚ → ℚ) (args : List (String × Ty)) (o : Obj) : Except Err Item := do
  let l ← args.mapM fun p => store f32 p.1 p.2 (plainField o p.1)
  .ok (.act o.cls.id l)

/-- One child (training.py:100-112, inferencing.py:122-135). -/
def itemOf (f32 : ℚ → ℚ) (k : Kind) (o : Obj) : Except Err Item :=
  match layerArgs k o.cls with
  | some args => layerToProto f32 k args o
  | none => match actArgs o.cls with
    | some args => actToProto f32 args o
    | none => .error (.py .keyError)

/-- `type(layer)` is in the mappings. -/
def supported (k : Kind) (c : Cls) : Bool := (layerArgs k c).isSome || (actArgs c).isSome

/-- A model: an `AnalogSequential` of module objects (with their identities), or anything else. -/
inductive Model where
  | seq (l : List (Nat × Obj))
  | other (n : Nat)

/-- `model.children()`: every module object once, at its first position. -/
def children : List (Nat × Obj) → List (Nat × Obj)
  | [] => []
  | p :: t => p :: (children t).filter fun q => q.1 ≠ p.1

/-- `_model_to_proto` (training.py:89-114, inferencing.py:109-137). -/
def modelToProto (f32 : ℚ → ℚ) (k : Kind) : Model → Except Err (List Item)
  | .other _ => .error .conversion
  | .seq l =>
    if (children l).any fun p => !supported k p.2.cls then .error .conversion
    else (children l).mapM fun p => itemOf f32 k p.2

/-! ## Reading -/

/-- The field of the declared type (mappings.py:122-132). -/
def load (ty : Ty) (a : Attr) : Val :=
  match ty with
  | .int => .int a.i
  | .bool => .bool a.b
  | .str => .str a.s
  | .float => .float a.f
  | .ints => .ints a.ints

/-- Keyword arguments: the plain ones and `rpu_config`. -/
structure Kw where
  plain : List (String × Val)
  cfg : Option Cfg

/-- How a configuration is made from the attribute `rpu_config`. -/
abbrev MkCfg := String → Except Err Cfg

/-- `preset()` (mappings.py:174-187). -/
def trainCfg (dflt : String → Cfg) : MkCfg := fun s =>
  if s ∈ presets .training then .ok (dflt s) else .error .conversion

/-- One argument of a layer (mappings.py:121-132, i_mappings.py:112-127): unknown arguments raise in the
training format and are ignored in the inference format. -/
def readArg (k : Kind) (mk : MkCfg) (args : List (String × Ty)) (kw : Kw) (a : Attr) : Except Err Kw :=
  match get args a.name with
  | none => if k = .training then .error (.py .keyError) else .ok kw
  | some ty =>
    if a.name = "rpu_config" then (mk a.s).map fun c => { kw with cfg := some c }
    else .ok { kw with plain := put kw.plain a.name (load ty a) }

/-- The loop over the arguments. -/
def readArgs (k : Kind) (mk : MkCfg) (args : List (String × Ty)) : List Attr → Kw → Except Err Kw
  | [], kw => .ok kw
  | a :: t, kw => match readArg k mk args kw a with
    | .ok kw => readArgs k mk args t kw
    | .error e => .error e

/-- `weight_scaling_omega` (mappings.py:134-139): the value is set as `weights_scaling_omega`. -/
def legacyOmega (kw : Kw) : Except Err Kw :=
  match get kw.plain "weight_scaling_omega" with
  | none => .ok kw
  | some .none => .ok { kw with plain := kw.plain.filter fun p => p.1 ≠ "weight_scaling_omega" }
  | some v => match kw.cfg with
    | none => .error .conversion
    | some c => .ok ⟨kw.plain.filter fun p => p.1 ≠ "weight_scaling_omega",
        some { c with stray := asFloat v }⟩

/-- The step exists in the training format only. -/
def omegaStep (k : Kind) (kw : Kw) : Except Err Kw := if k = .training then legacyOmega kw else .ok kw

/-- `Function.from_proto` (mappings.py:117-141, i_mappings.py:108-131). -/
def objFromProto (dflt : String → Cfg) (k : Kind) (mk : MkCfg) (args : List (String × Ty)) (c : Cls) (l : List Attr) :
    Except Err Obj := do
  let kw ← readArgs k mk args l ⟨[], none⟩
  let kw ← omegaStep k kw
  make dflt c kw.plain kw.cfg

/-- One item of the network (training.py:143-154, inferencing.py:240-252). -/
def itemFromProto (dflt : String → Cfg) (k : Kind) (mk : MkCfg) : Item → Except Err Obj
  | .layer id l => match inverse (layerArgs k) id with
    | none => .error (.py .keyError)
    | some c => objFromProto dflt k mk ((layerArgs k c).getD []) c l
  | .act id l => match inverse actArgs id with
    | none => .error (.py .keyError)
    | some c => objFromProto dflt k mk ((actArgs c).getD []) c l

/-- Module objects numbered from `n`. -/
def number {α : Type} : Nat → List α → List (Nat × α)
  | _, [] => []
  | n, a :: t => (n, a) :: number (n + 1) t

/-- `_model_from_proto` (training.py:141-156, inferencing.py:235-254): new module objects. -/
def modelFromProto (dflt : String → Cfg) (k : Kind) (mk : MkCfg) (l : List Item) : Except Err Model := do
  let os ← l.mapM (itemFromProto dflt k mk)
  .ok (.seq (number 0 os))

/-! ## Experiments -/

/-- Datasets (mappings.py:194). -/
inductive Ds where
  | fashionMNIST
  | svhn
  | other (n : Nat)
  deriving DecidableEq

/-- `Mappings.datasets`. -/
def Ds.id : Ds → Option String
  | .fashionMNIST => some "fashion_mnist"
  | .svhn => some "svhn"
  | .other _ => none

/-- `InverseMappings.datasets[id]`. -/
def dsOf (id : String) : Except Err Ds :=
  if id = "fashion_mnist" then .ok .fashionMNIST else if id = "svhn" then .ok .svhn
  else .error (.py .keyError)

/-- Loss functions (mappings.py:265-270). -/
inductive Loss where
  | bce | crossEntropy | mse | nll
  | other (n : Nat)
  deriving DecidableEq

/-- `Mappings.loss_functions`. -/
def Loss.id : Loss → Option String
  | .bce => some "BCELoss"
  | .crossEntropy => some "CrossEntropyLoss"
  | .mse => some "MSELoss"
  | .nll => some "NLLLoss"
  | .other _ => none

/-- `InverseMappings.loss_functions[id]`. -/
def lossOf (id : String) : Except Err Loss :=
  if id = "BCELoss" then .ok .bce else if id = "CrossEntropyLoss" then .ok .crossEntropy
  else if id = "MSELoss" then .ok .mse else if id = "NLLLoss" then .ok .nll
  else .error (.py .keyError)

/-- `BasicTraining` (experiments/experiments/training.py:44-71). -/
structure Training where
  dataset : Ds
  model : Model
  batchSize : ℤ
  loss : Loss
  epochs : ℤ
  lr : ℚ

/-- `TrainingInput` (definitions/input_file_pb2.py:19). -/
structure TrainMsg where
  datasetId : String
  batchSize : ℤ
  layers : List Item
  optArgs : List Attr
  lossId : String
  epochs : ℤ

/-- A 32-bit integer field of a message. -/
def field32 (i : ℤ) : Except Err ℤ := if in32 i then .ok i else .error (.py .valueError)

/-- `_dataset_to_proto` (training.py:82-87, inferencing.py:102-107). -/
def dsId (d : Ds) : Except Err String :=
  match d.id with
  | some s => .ok s
  | none => .error .conversion

/-- The test of `_training_to_proto` (training.py:118-119). -/
def lossId (l : Loss) : Except Err String :=
  match l.id with
  | some s => .ok s
  | none => .error .conversion

/-- `BasicTrainingConverter.to_proto` (training.py:43-56, 116-137). -/
def trainToProto (f32 : ℚ → ℚ) (e : Training) : Except Err TrainMsg := do
  let d ← dsId e.dataset
  let b ← field32 e.batchSize
  let l ← modelToProto f32 .training e.model
  let s ← lossId e.loss
  let n ← field32 e.epochs
  .ok ⟨d, b, l, [{ name := "lr", type := .float, f := f32 e.lr }], s, n⟩

/-- `optimizer.arguments[0].f` (training.py:65). -/
def firstF : List Attr → Except Err ℚ
  | a :: _ => .ok a.f
  | [] => .error (.py .indexError)

/-- `BasicTrainingConverter.from_proto` (training.py:58-74). -/
def trainFromProto (dflt : String → Cfg) (m : TrainMsg) : Except Err Training := do
  let d ← dsOf m.datasetId
  let md ← modelFromProto dflt .training (trainCfg dflt) m.layers
  let l ← lossOf m.lossId
  let r ← firstF m.optArgs
  .ok ⟨d, md, m.batchSize, l, m.epochs, r⟩

end Aihw.Cloud
