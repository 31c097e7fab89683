import Verif.Cloud.Infer

/-!
# Specification for C79 and C80

What of a layer survives being written to a message and read back.
-/
namespace Aihw.Cloud
open Aihw

/-- The attributes that are carried over, with their kinds. -/
def carried : Cls → List (String × Ty)
  | .analogConv2d | .analogConv2dMapped | .conv2d =>
    [("in_channels", .int), ("out_channels", .int), ("kernel_size", .ints), ("stride", .ints),
      ("padding", .ints), ("dilation", .ints)]
  | .convTranspose2d =>
    [("in_channels", .int), ("out_channels", .int), ("kernel_size", .ints), ("stride", .ints),
      ("padding", .ints), ("dilation", .ints), ("output_padding", .ints)]
  | .analogLinear | .analogLinearMapped | .linear => [("in_features", .int), ("out_features", .int)]
  | .batchNorm2d => [("num_features", .int)]
  | .maxPool2d => [("kernel_size", .int), ("stride", .int), ("padding", .int), ("dilation", .int),
      ("ceil_mode", .bool)]
  | .leakyReLU => [("negative_slope", .float)]
  | .logSoftmax | .softmax => [("dim", .int)]
  | _ => []

/-- The classes with an argument `bias`. -/
def hasBias : Cls → Bool
  | .analogConv2d | .analogConv2dMapped | .conv2d | .convTranspose2d | .analogLinear
  | .analogLinearMapped | .linear => true
  | _ => false

/-- A value that survives: integers and Booleans as the same number, sizes as the same list (a single
size as a pair), floats rounded to 32 bits. -/
def Survives (f32 : ℚ → ℚ) : Ty → Val → Val → Prop
  | .int, v, w => (∃ i, v = .int i ∧ w = .int i) ∨ (∃ b : Bool, v = .bool b ∧ w = .int b.toNat)
  | .bool, v, w => (∃ b, v = .bool b ∧ w = .bool b) ∨ (∃ i, v = .int i ∧ w = .bool (decide (i ≠ 0)))
  | .float, v, w => (∃ q, v = .float q ∧ w = .float (f32 q)) ∨
      (∃ i : ℤ, v = .int i ∧ w = .float (f32 i)) ∨
      (∃ b : Bool, v = .bool b ∧ w = .float (f32 b.toNat))
  | .ints, v, w => (∃ l, v = .ints l ∧ w = .ints l) ∨ (∃ i, v = .int i ∧ w = .ints [i, i]) ∨
      (∃ b : Bool, v = .bool b ∧ w = .ints [b.toNat, b.toNat])
  | .str, v, w => w = v

/-- A value that can be written. -/
def Fits : Ty → Val → Prop
  | .int, v => (∃ i : ℤ, v = .int i ∧ -2 ^ 63 ≤ i ∧ i < 2 ^ 63) ∨ ∃ b, v = .bool b
  | .bool, v => (∃ b, v = .bool b) ∨ ∃ i, v = .int i
  | .float, v => (∃ q, v = .float q) ∨ (∃ i, v = .int i) ∨ ∃ b, v = .bool b
  | .ints, v => (∃ l : List ℤ, v = .ints l ∧ ∀ i ∈ l, -2 ^ 63 ≤ i ∧ i < 2 ^ 63) ∨
      (∃ i : ℤ, v = .int i ∧ -2 ^ 63 ≤ i ∧ i < 2 ^ 63) ∨ ∃ b, v = .bool b
  | .str, v => ∃ s, v = .str s

/-- The classes that a format has. -/
def InFormat (k : Kind) : Cls → Prop
  | .other _ => False
  | .analogConv2dMapped | .analogLinearMapped => k = .inference
  | _ => True

/-- The configuration classes that a format knows. -/
def cfgClasses : Kind → List String
  | .training => ["ReRamESPreset", "ReRamSBPreset", "CapacitorPreset", "EcRamPreset", "IdealizedPreset",
      "PCMPreset", "MixedPrecisionReRamESPreset", "MixedPrecisionReRamSBPreset",
      "MixedPrecisionCapacitorPreset", "MixedPrecisionEcRamPreset", "MixedPrecisionIdealizedPreset",
      "MixedPrecisionPCMPreset", "TikiTakaReRamESPreset", "TikiTakaReRamSBPreset",
      "TikiTakaCapacitorPreset", "TikiTakaEcRamPreset", "TikiTakaIdealizedPreset"]
  | .inference => ["InferenceRPUConfig", "OldWebComposerInferenceRPUConfig",
      "WebComposerInferenceRPUConfig"]

/-- A layer that can be written: its class is in the format, all carried attributes exist and fit, and
the configuration of an analog layer is of a class that the format knows. -/
structure Writable (k : Kind) (o : Obj) : Prop where
  cls : InFormat k o.cls
  carried : ∀ n ty, (n, ty) ∈ Cloud.carried o.cls → ∃ v, get o.attrs n = some v ∧ Fits ty v
  cfg : o.cls.isAnalog = true → ∃ d s, o.cfg = some d ∧ d.cls = .known s ∧ s ∈ cfgClasses k

/-- What an attribute is after a constructor call without the argument. -/
def defaultAttr (c : Cls) (n : String) : Option Val := ((get (sig c) n).bind id).map (norm c n)

/-- The flag `bias` written for a layer: the attribute is not `None`. -/
def writesBias (o : Obj) : Bool := decide ((get o.attrs "bias").getD .none ≠ .none)

/-- The layer `o'` is `o` after writing and reading, with configuration `cfg`. -/
structure Reloaded (f32 : ℚ → ℚ) (o o' : Obj) (cfg : Option Cfg) : Prop where
  cls : o'.cls = o.cls
  carried : ∀ n ty, (n, ty) ∈ carried o.cls →
    ∃ v w, get o.attrs n = some v ∧ get o'.attrs n = some w ∧ Survives f32 ty v w
  bias : hasBias o.cls = true →
    get o'.attrs "bias" = some (biasAttr o.cls (.bool (writesBias o)))
  lost : ∀ n, n ∉ (Cloud.carried o.cls).map (·.1) → (hasBias o.cls = true → n ≠ "bias") →
    get o'.attrs n = defaultAttr o.cls n
  cfg : o'.cfg = cfg

/-- The configuration after the training format: a default object of the same class, that remembers the
scale omega only under the misspelled name. -/
def TrainReloaded (f32 : ℚ → ℚ) (dflt : String → Cfg) (o o' : Obj) : Prop :=
  (o.cls.isAnalog = false → Reloaded f32 o o' none) ∧
  (o.cls.isAnalog = true → ∃ d s, o.cfg = some d ∧ d.cls = .known s ∧
    Reloaded f32 o o' (some { dflt s with stray := some (f32 d.omega) }))

end Aihw.Cloud
