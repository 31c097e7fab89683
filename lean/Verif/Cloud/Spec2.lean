import Verif.Cloud.Props

/-!
# Specification for C80 and C81: the dictionaries of the inference format
-/
namespace Aihw.Cloud
open Aihw

/-- The number that a value is in a 32-bit float field; `None` is an unset field. -/
def NumVal (f32 : ℚ → ℚ) (v : Val) (q : ℚ) : Prop :=
  (v = .none ∧ q = 0) ∨ (∃ x, v = .float x ∧ q = f32 x) ∨ (∃ i : ℤ, v = .int i ∧ q = f32 i) ∨
    (∃ b : Bool, v = .bool b ∧ q = f32 b.toNat)

/-- The flag that a value is in a Boolean field. -/
def FlagVal (v : Val) (c : Bool) : Prop :=
  (v = .none ∧ c = false) ∨ (v = .bool c) ∨ (∃ i : ℤ, v = .int i ∧ c = decide (i ≠ 0))

/-- The integer that a value is in a 64-bit field. -/
def IntVal (v : Val) (i : ℤ) : Prop :=
  (v = .none ∧ i = 0) ∨ (v = .int i ∧ -2 ^ 63 ≤ i ∧ i < 2 ^ 63) ∨ (∃ b : Bool, v = .bool b ∧ i = b.toNat)

/-- The text that a value is in a string field. -/
def StrVal (v : Val) (s : String) : Prop := (v = .none ∧ s = "") ∨ v = .str s

/-- The dictionary `d` has the noise settings `n`: all settings must be there; the drift parameters only
for devices other than `pcm`, and they are used for the device `generic` only. -/
structure NoiseOf (f32 : ℚ → ℚ) (d : Dict) (n : NoiseInfo) : Prop where
  dev : ∃ v, get d "device_id" = some v ∧ StrVal v n.fields.deviceId
  prog : ∃ v, get d "programming_noise_scale" = some v ∧ NumVal f32 v n.fields.prog
  read : ∃ v, get d "read_noise_scale" = some v ∧ NumVal f32 v n.fields.read
  drift : ∃ v, get d "drift_scale" = some v ∧ NumVal f32 v n.fields.drift
  comp : ∃ v, get d "drift_compensation" = some v ∧ FlagVal v n.fields.comp
  first : ∃ v, get d "poly_first_order_coef" = some v ∧ NumVal f32 v n.fields.first
  second : ∃ v, get d "poly_second_order_coef" = some v ∧ NumVal f32 v n.fields.second
  const : ∃ v, get d "poly_constant_coef" = some v ∧ NumVal f32 v n.fields.const
  pcm : n.fields.deviceId = "pcm" → n.mean = -11 / 10 ∧ n.std = -11 / 10
  generic : n.fields.deviceId ≠ "pcm" → ∃ v w m s, get d "drift_mean" = some v ∧
    get d "drift_std" = some w ∧ NumVal f32 v m ∧ NumVal f32 w s ∧
    (n.fields.deviceId = "generic" → n.mean = m ∧ n.std = s) ∧
    (n.fields.deviceId ≠ "generic" → n.mean = -11 / 10 ∧ n.std = -11 / 10)

/-- The dictionary `d` has the analog settings `a`: three known keys, each of which may be missing. -/
structure AnalogOf (f32 : ℚ → ℚ) (d : Dict) (a : AnalogMsg) : Prop where
  keys : ∀ p ∈ d, p.1 = "output_noise_strength" ∨ p.1 = "adc" ∨ p.1 = "dac"
  noise : NumVal f32 ((get d "output_noise_strength").getD .none) a.outNoise
  adc : IntVal ((get d "adc").getD .none) a.adc
  dac : IntVal ((get d "dac").getD .none) a.dac

/-- The noise model for the settings. -/
def noiseFor (n : NoiseInfo) : Noise :=
  if n.fields.deviceId = "pcm" then
    .pcm 25 [n.fields.const, n.fields.first, n.fields.second] n.fields.prog n.fields.read n.fields.drift
  else
    .generic 25 [n.fields.const, n.fields.first, n.fields.second] n.mean n.std n.fields.prog n.fields.read
      n.fields.drift

/-- The configuration for the settings: class `s`, converter resolutions `1 / (2^bits - 2)`. -/
def cfgFor (dflt : String → Cfg) (s : String) (n : NoiseInfo) (a : AnalogMsg) : Cfg :=
  { dflt s with
    outNoise := a.outNoise
    outRes := 1 / ((2 : ℚ) ^ a.adc - 2)
    inpRes := 1 / ((2 : ℚ) ^ a.dac - 2)
    noise := noiseFor n
    driftComp := n.fields.comp }

/-- The settings for which there is a configuration. -/
structure Usable (n : NoiseInfo) (a : AnalogMsg) : Prop where
  adc : a.adc ≠ 1
  dac : a.dac ≠ 1
  dev : n.fields.deviceId = "pcm" ∨ n.fields.deviceId = "generic"

end Aihw.Cloud
