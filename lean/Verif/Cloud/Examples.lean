import Verif.Cloud.Props4

/-! # Concrete cases for C79 to C82 -/
namespace Aihw.Cloud
open Aihw

/-- Default configurations for the examples. -/
def exDflt (s : String) : Cfg := ⟨.known s, 6 / 10, none, true, 6 / 100, 1 / 254, 1 / 126, .default, true⟩

/-- A linear layer without bias, with a preset configuration with its own omega. -/
def exLin : Obj :=
  ⟨.analogLinear, [("in_features", .int 4), ("out_features", .int 2), ("bias", .bool false)],
    some { exDflt "PCMPreset" with omega := 1 / 2 }⟩

/-- A digital convolution without bias. -/
def exConv : Obj :=
  ⟨.conv2d, [("in_channels", .int 3), ("out_channels", .int 8), ("kernel_size", .ints [3, 3]),
    ("stride", .ints [1, 1]), ("padding", .ints [0, 0]), ("dilation", .ints [1, 1]), ("groups", .int 1),
    ("bias", .none), ("padding_mode", .str "zeros")], none⟩

/-- A leaky rectifier. -/
def exAct : Obj := ⟨.leakyReLU, [("negative_slope", .float (1 / 4)), ("inplace", .bool true)], none⟩

/-- An experiment that uses one activation object twice. -/
def exTrain : Training :=
  ⟨.svhn, .seq [(0, exConv), (1, exAct), (2, exLin), (1, exAct)], 64, .nll, 30, 1 / 20⟩

/-- The experiment can be exported; the second use of the activation is not exported. -/
example : ∃ m, trainToProto id exTrain = .ok m ∧ m.layers.length = 3 ∧ ∃ e', trainFromProto exDflt m = .ok e' ∧
    e'.model = .seq [
      (0, exConv),
      (1, ⟨.leakyReLU, [("negative_slope", .float (1 / 4)), ("inplace", .bool false)], none⟩),
      (2, ⟨.analogLinear, [("in_features", .int 4), ("out_features", .int 2), ("bias", .bool true)],
        some { exDflt "PCMPreset" with stray := some (1 / 2) }⟩)] := by
  refine ⟨_, rfl, rfl, _, rfl, rfl⟩

/-- The hypotheses of `C79_again` hold for it. -/
example : (∀ s, (exDflt s).cls = .known s) ∧ ∀ l, exTrain.model = .seq l → ∀ p ∈ l,
    p.2.cls = .analogLinear ∨ p.2.cls = .analogConv2d → ∃ b, get p.2.attrs "bias" = some (.bool b) := by
  refine ⟨fun _ => rfl, ?_⟩
  intro l hl p hp hc
  cases hl
  simp only [List.mem_cons, List.not_mem_nil, or_false] at hp
  rcases hp with rfl | rfl | rfl | rfl
  · simp [exConv] at hc
  · simp [exAct] at hc
  · exact ⟨false, rfl⟩
  · simp [exAct] at hc

/-- Noise settings. -/
def exNoise : Dict :=
  [("device_id", .str "generic"), ("programming_noise_scale", .float 1), ("read_noise_scale", .float 2),
    ("drift_scale", .int 1), ("drift_compensation", .bool true), ("poly_first_order_coef", .float 3),
    ("poly_second_order_coef", .float 4), ("poly_constant_coef", .float 5), ("drift_mean", .float (1 / 10)),
    ("drift_std", .float (1 / 100))]

/-- Analog settings. -/
def exAnalog : Dict := [("output_noise_strength", .float (1 / 25)), ("adc", .int 9), ("dac", .int 8)]

example : cfgFromInfo id exDflt exAnalog exNoise = .ok
    { exDflt "WebComposerInferenceRPUConfig" with
      outNoise := 1 / 25, outRes := 1 / 510, inpRes := 1 / 254,
      noise := .generic 25 [5, 3, 4] (1 / 10) (1 / 100) 1 2 1, driftComp := true } := by decide +kernel

example : cfgFromInfo id exDflt [("adc", .int 1)] exNoise = .error (.py .zeroDivision) := by decide +kernel

/-- Without `adc` the resolution is -1. -/
example : (cfgFromInfo id exDflt [] exNoise).toOption.map (·.outRes) = some (-1) := by decide +kernel

/-- An inference experiment. -/
def exInfer (s t : String) : Inferencing :=
  ⟨.fashionMNIST, .seq [(0, { exLin with cfg := some (exDflt s) }),
    (1, ⟨.analogLinearMapped, [("in_features", .int 2), ("out_features", .int 2), ("bias", .bool true)],
      some (exDflt t)⟩)], 10, .crossEntropy, "web-template", 2, 86400, false⟩

example : ∃ m, inferToProto id (exInfer "InferenceRPUConfig" "InferenceRPUConfig") exAnalog exNoise = .ok m ∧
    (inferFromProto exDflt m).toOption.map (fun e => (e.loss, e.remap, e.repeats)) = some (.nll, true, 2) :=
  ⟨_, rfl, by decide +kernel⟩

example : ∃ m, inferToProto id (exInfer "InferenceRPUConfig" "WebComposerInferenceRPUConfig") exAnalog exNoise =
    .ok m ∧ inferFromProto exDflt m = .error (.py .configError) := by
  refine ⟨_, rfl, rfl⟩

/-- Results. -/
def exResults : Results :=
  ⟨some ⟨[("inference_repeat", .int 2), ("is_partial", .bool false), ("time_elapsed", .float (7 / 2))],
    some [[("t_inference", .float 0), ("avg_accuracy", .float (9 / 10)), ("std_accuracy", .float 0),
      ("avg_error", .float (1 / 10)), ("avg_loss", .float (1 / 3))]]⟩, []⟩

example : ∃ m, outToProto id exResults = .ok m ∧ outToJson m = exResults := ⟨_, rfl, rfl⟩

example : toJson [("epochs", .int 3), ("version", .int 7)] =
    [("version", .given (.int 7)), ("epochs", .given (.int 3))] := by decide +kernel

example : (trainResults [⟨0, [{ name := "loss", type := .float, f := 1 }, { name := "loss", type := .float, f := 2 }]⟩]).2 =
    [(0, [("loss", 2)])] := by decide +kernel

example : ∃ m d', noiseToProto id (put exNoise "device_id" (.str "reram")) = .ok m ∧ noiseFromProto m = .ok d' ∧
    get d' "device_id" = some (.str "generic") := ⟨_, _, rfl, rfl, rfl⟩

end Aihw.Cloud
