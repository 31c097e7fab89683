import Verif.Cloud.Props3

/-!
# C82: results (cloud/converter/v1/inferencing.py:256-414, training.py:159-179)

The dictionaries of results: `Runs` is `results["inference_runs"]`, whose list of results may be missing.
Python evaluates all keys of a message constructor before it checks types; when both go wrong the model may
report the other error.
-/
namespace Aihw.Cloud
open Aihw

/-- `results["inference_runs"]`. -/
structure Runs where
  scalars : Dict
  results : Option (List Dict)
  deriving DecidableEq

/-- The dictionary of results. -/
structure Results where
  runs : Option Runs
  other : List (String × Val)
  deriving DecidableEq

/-- `InferenceResultsProto` (definitions/i_output_file_pb2.py:19). -/
structure ResultMsg where
  t : ℚ
  avgAcc : ℚ
  stdAcc : ℚ
  avgErr : ℚ
  avgLoss : ℚ
  deriving DecidableEq

/-- `InferencingOutput` with its `InferenceRunsProto`. -/
structure OutMsg where
  schema : ℤ
  opset : ℤ
  repeats : ℤ
  isPartial : Bool
  time : ℚ
  results : List ResultMsg
  deriving DecidableEq

/-- One result (inferencing.py:404-412). -/
def resultMsg (f32 : ℚ → ℚ) (d : Dict) : Except Err ResultMsg := do
  let a ← needF f32 d "t_inference"
  let b ← needF f32 d "avg_accuracy"
  let c ← needF f32 d "std_accuracy"
  let e ← needF f32 d "avg_error"
  let g ← needF f32 d "avg_loss"
  .ok ⟨a, b, c, e, g⟩

/-- `results["inference_repeat"]` in an integer field. -/
def needI (d : Dict) (k : String) : Except Err ℤ := do
  let v ← need d k
  msgI v

/-- A key that must be there. -/
def present {α : Type} : Option α → Except Err α
  | some a => .ok a
  | none => .error (.py .keyError)

/-- `BasicInferencingResultConverter.to_proto` with `_runs_to_proto` (inferencing.py:306-312, 380-414). -/
def outToProto (f32 : ℚ → ℚ) (r : Results) : Except Err OutMsg := do
  let s ← present r.runs
  let i ← needI s.scalars "inference_repeat"
  let p ← needB s.scalars "is_partial"
  let t ← needF f32 s.scalars "time_elapsed"
  let l ← present s.results
  let ms ← l.mapM (resultMsg f32)
  .ok ⟨1, 1, i, p, t, ms⟩

/-- One result as a dictionary (inferencing.py:325-333, 358-366). -/
def resultDict (m : ResultMsg) : Dict :=
  [("t_inference", .float m.t), ("avg_accuracy", .float m.avgAcc), ("std_accuracy", .float m.stdAcc),
    ("avg_error", .float m.avgErr), ("avg_loss", .float m.avgLoss)]

/-- `to_json_from_pb` (inferencing.py:314-345). -/
def outToJson (m : OutMsg) : Results :=
  ⟨some ⟨[("inference_repeat", .int m.repeats), ("is_partial", .bool m.isPartial),
    ("time_elapsed", .float m.time)], some (m.results.map resultDict)⟩, []⟩

/-- `result_from_proto` (inferencing.py:347-368). -/
def resultFromProto (m : OutMsg) : List Dict := m.results.map resultDict

/-- Values of the dictionary `to_json` returns: the version or a value of the results. -/
inductive JVal where
  | version (schema opset : ℤ)
  | given (v : Val)
  deriving DecidableEq

/-- `to_json` (inferencing.py:370-375) for the plain entries of the results: the version first,
overwritten by an entry of that name. -/
def toJson (d : Dict) : List (String × JVal) :=
  d.foldl (fun acc p => put acc p.1 (.given p.2)) [("version", .version 1 1)]

/-! ## Dictionaries of settings from messages -/

/-- `_analog_info_from_proto` (inferencing.py:256-266). -/
def analogFromProto (a : AnalogMsg) : Dict :=
  [("output_noise_strength", .float a.outNoise), ("adc", .int a.adc), ("dac", .int a.dac)]

/-- The common entries (inferencing.py:288-297). -/
def noiseDict (typ : String) (n : NoiseFields) : Dict :=
  [("device_id", .str typ), ("programming_noise_scale", .float n.prog), ("read_noise_scale", .float n.read),
    ("drift_scale", .float n.drift), ("drift_compensation", .bool n.comp),
    ("poly_first_order_coef", .float n.first), ("poly_second_order_coef", .float n.second),
    ("poly_constant_coef", .float n.const)]

/-- `_noise_model_from_proto` (inferencing.py:268-300): the device is the kind of the item. -/
def noiseFromProto : NoiseMsg → Except Err Dict
  | .pcm n => .ok (noiseDict "pcm" n)
  | .generic n m s => .ok (noiseDict "generic" n ++ [("drift_mean", .float m), ("drift_std", .float s)])
  | .empty => .error (.py .typeError)

/-! ## Training results -/

/-- `EpochInformation` (definitions/output_file_pb2.py:20). -/
structure EpochMsg where
  epoch : ℤ
  metrics : List Attr

/-- `_epochs_from_proto` (training.py:169-179), one epoch. -/
def epochDict (e : EpochMsg) : ℤ × List (String × ℚ) :=
  (e.epoch, e.metrics.foldl (fun d a => put d a.name a.f) [])

/-- `BasicTrainingResultConverter.from_proto` (training.py:164-166): version and epochs. -/
def trainResults (l : List EpochMsg) : (ℤ × ℤ) × List (ℤ × List (String × ℚ)) := ((1, 1), l.map epochDict)

end Aihw.Cloud
