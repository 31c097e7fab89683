import Verif.Cloud.Model
import Mathlib.Algebra.Order.Field.Power

/-!
# C80, C81: the inference format (inferencing.py, rpu_config_info.py, noise_model_info.py)

Numbers are rationals: the double arithmetic of `1.0 / (2**adc - 2)` is exact here and very large
exponents, which overflow in Python, are not treated.
-/
namespace Aihw.Cloud
open Aihw

/-- `AnalogProto` (definitions/i_input_file_pb2.py:19). -/
structure AnalogMsg where
  outNoise : ℚ := 0
  adc : ℤ := 0
  dac : ℤ := 0
  deriving DecidableEq

/-- The fields common to `PCMProto` and `GenericProto`. -/
structure NoiseFields where
  deviceId : String := ""
  prog : ℚ := 0
  read : ℚ := 0
  drift : ℚ := 0
  comp : Bool := false
  first : ℚ := 0
  second : ℚ := 0
  const : ℚ := 0
  deriving DecidableEq

/-- `NoiseModelProto`: one of two items, or none. -/
inductive NoiseMsg where
  | pcm (n : NoiseFields)
  | generic (n : NoiseFields) (mean std : ℚ)
  | empty
  deriving DecidableEq

/-- A dictionary of the user. -/
abbrev Dict := List (String × Val)

/-- `d[k]`. -/
def need (d : Dict) (k : String) : Except Err Val :=
  match get d k with
  | some v => .ok v
  | none => .error (.py .keyError)

/-- A float field in a message constructor; `None` leaves it unset. -/
def msgF (f32 : ℚ → ℚ) : Val → Except Err ℚ
  | .none => .ok 0
  | v => match asFloat v with
    | some q => .ok (f32 q)
    | none => .error (.py .typeError)

/-- A Boolean field in a message constructor. -/
def msgB : Val → Except Err Bool
  | .none => .ok false
  | v => match asInt v with
    | some i => .ok (i ≠ 0)
    | none => .error (.py .typeError)

/-- A 64-bit integer field in a message constructor. -/
def msgI : Val → Except Err ℤ
  | .none => .ok 0
  | v => match asInt v with
    | some i => if in64 i then .ok i else .error (.py .valueError)
    | none => .error (.py .typeError)

/-- A string field in a message constructor. -/
def msgS : Val → Except Err String
  | .none => .ok ""
  | .str s => .ok s
  | _ => .error (.py .typeError)

/-- `noise_model_info[k]` in a float field. -/
def needF (f32 : ℚ → ℚ) (d : Dict) (k : String) : Except Err ℚ := do
  let v ← need d k
  msgF f32 v

/-- `noise_model_info[k]` in a Boolean field. -/
def needB (d : Dict) (k : String) : Except Err Bool := do
  let v ← need d k
  msgB v

/-- The common fields from a dictionary.  (Python looks all keys up before it checks types; when both
go wrong the model may report the other error.) -/
def noiseFields (f32 : ℚ → ℚ) (d : Dict) (v : Val) : Except Err NoiseFields := do
  let a ← needF f32 d "programming_noise_scale"
  let b ← needF f32 d "read_noise_scale"
  let c ← needF f32 d "drift_scale"
  let e ← needB d "drift_compensation"
  let g ← needF f32 d "poly_first_order_coef"
  let h ← needF f32 d "poly_second_order_coef"
  let i ← needF f32 d "poly_constant_coef"
  let s ← msgS v
  .ok ⟨s, a, b, c, e, g, h, i⟩

/-- The generic item. -/
def genericMsg (f32 : ℚ → ℚ) (d : Dict) (v : Val) : Except Err NoiseMsg := do
  let n ← noiseFields f32 d v
  let m ← needF f32 d "drift_mean"
  let s ← needF f32 d "drift_std"
  .ok (.generic n m s)

/-- `_noise_model_to_proto` (inferencing.py:139-175). -/
def noiseToProto (f32 : ℚ → ℚ) (d : Dict) : Except Err NoiseMsg := do
  let v ← need d "device_id"
  if v = .str "pcm" then (noiseFields f32 d v).map .pcm else genericMsg f32 d v

/-- One keyword argument of `AnalogProto(**analog_info)`. -/
def analogField (f32 : ℚ → ℚ) (m : AnalogMsg) (p : String × Val) : Except Err AnalogMsg :=
  if p.1 = "output_noise_strength" then (msgF f32 p.2).map fun q => { m with outNoise := q }
  else if p.1 = "adc" then (msgI p.2).map fun i => { m with adc := i }
  else if p.1 = "dac" then (msgI p.2).map fun i => { m with dac := i }
  else .error (.py .valueError)

/-- `AnalogProto(**analog_info)`. -/
def analogToProto (f32 : ℚ → ℚ) (d : Dict) : Except Err AnalogMsg := d.foldlM (analogField f32) {}

/-- `NoiseModelInfo` (noise_model_info.py:17-50). -/
structure NoiseInfo where
  fields : NoiseFields
  mean : ℚ
  std : ℚ
  deriving DecidableEq

/-- `NoiseModelInfo(nm_proto)` (noise_model_info.py:23-50): an empty message is read as an empty generic
item; the item `pcm` has no drift parameters. -/
def noiseInfo : NoiseMsg → Except Err NoiseInfo
  | .pcm n => if n.deviceId = "generic" then .error (.py .attributeError)
    else .ok ⟨n, -11 / 10, -11 / 10⟩
  | .generic n m s => .ok (if n.deviceId = "generic" then ⟨n, m, s⟩ else ⟨n, -11 / 10, -11 / 10⟩)
  | .empty => .ok ⟨{}, -11 / 10, -11 / 10⟩

/-- The values of the attribute `rpu_config` in an item of the network (rpu_config_info.py:63-74). -/
def cfgNames : Item → List String
  | .layer id l => if "Analog".toList.isPrefixOf id.toList then
      (l.filter fun a => a.name = "rpu_config").map (·.s) else []
  | .act _ _ => []

/-- `_get_common_rpucfg_name` (rpu_config_info.py:51-86); `none` and the empty string both raise in the
caller. -/
def commonName (layers : Option (List Item)) : Option String :=
  match layers with
  | none => some "WebComposerInferenceRPUConfig"
  | some l => match (l.flatMap cfgNames).dedup with
    | [s] => some s
    | _ => none

/-- `1.0 / (2**bits - 2)` (rpu_config_info.py:166-167). -/
def resolution (bits : ℤ) : Except Err ℚ :=
  if (2 : ℚ) ^ bits - 2 = 0 then .error (.py .zeroDivision) else .ok (1 / ((2 : ℚ) ^ bits - 2))

/-- The noise model (rpu_config_info.py:169-219). -/
def noiseModel (n : NoiseInfo) : Except Err Noise :=
  let f := n.fields
  if f.deviceId = "pcm" then .ok (.pcm 25 [f.const, f.first, f.second] f.prog f.read f.drift)
  else if f.deviceId = "generic" then
    .ok (.generic 25 [f.const, f.first, f.second] n.mean n.std f.prog f.read f.drift)
  else .error .deviceId

/-- `create_inference_rpu_config` (rpu_config_info.py:136-223). -/
def createCfg (dflt : String → Cfg) (n : NoiseInfo) (a : AnalogMsg) (layers : Option (List Item)) :
    Except Err Cfg :=
  match commonName layers with
  | none => .error (.py .configError)
  | some s =>
    if s ∈ presets .inference then do
      let o ← resolution a.adc
      let i ← resolution a.dac
      let m ← noiseModel n
      .ok { dflt s with outNoise := a.outNoise, outRes := o, inpRes := i, noise := m,
                        driftComp := n.fields.comp }
    else .error (.py .configError)

/-- `BasicInferencingConverter.rpu_config_from_info` (inferencing.py:188-197). -/
def cfgFromInfo (f32 : ℚ → ℚ) (dflt : String → Cfg) (analog noise : Dict) : Except Err Cfg := do
  let m ← noiseToProto f32 noise
  let n ← noiseInfo m
  let a ← analogToProto f32 analog
  createCfg dflt n a none

/-! ## Experiments -/

/-- `BasicInferencing` (experiments/experiments/inferencing.py:62-94). -/
structure Inferencing where
  dataset : Ds
  model : Model
  batchSize : ℤ
  loss : Loss
  template : String
  repeats : ℤ
  time : ℤ
  remap : Bool

/-- `InferenceInput` (definitions/i_input_file_pb2.py:19). -/
structure InferMsg where
  datasetId : String
  batchSize : ℤ
  layers : List Item
  template : String
  repeats : ℤ
  time : ℤ
  analog : AnalogMsg
  noise : NoiseMsg

/-- A 64-bit integer field of a message. -/
def field64 (i : ℤ) : Except Err ℤ := if in64 i then .ok i else .error (.py .valueError)

/-- `BasicInferencingConverter.to_proto` (inferencing.py:52-65, 199-217). -/
def inferToProto (f32 : ℚ → ℚ) (e : Inferencing) (analog noise : Dict) : Except Err InferMsg := do
  let d ← dsId e.dataset
  let b ← field64 e.batchSize
  let l ← modelToProto f32 .inference e.model
  let n ← noiseToProto f32 noise
  let a ← analogToProto f32 analog
  let r ← field64 e.repeats
  let t ← field64 e.time
  .ok ⟨d, b, l, e.template, r, t, a, n⟩

/-- `BasicInferencingConverter.from_proto` (inferencing.py:67-94): the loss function is always `NLLLoss`
and the weights are remapped (the default). -/
def inferFromProto (dflt : String → Cfg) (m : InferMsg) : Except Err Inferencing := do
  let d ← dsOf m.datasetId
  let n ← noiseInfo m.noise
  let md ← modelFromProto dflt .inference (fun _ => createCfg dflt n m.analog (some m.layers)) m.layers
  .ok ⟨d, md, m.batchSize, .nll, m.template, m.repeats, m.time, true⟩

end Aihw.Cloud
