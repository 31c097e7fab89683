import Verif.Inference.Converter
import Mathlib.Analysis.SpecialFunctions.Pow.Real
import Mathlib.Analysis.SpecialFunctions.Log.Base
import Mathlib.Analysis.Real.Sqrt

/-!
# Model of the statistical noise models for inference

src/aihwkit/inference/noise/{base,pcm,custom,hermes,reram}.py, over the reals.  Gaussian numbers are arbitrary
arguments.  A NaN (square root or logarithm of a negative number, division by zero) is the error `nanInf`.
-/
namespace Aihw.Inference

/-! ## Generic part -/

/-- A conductance converter with parameters `P` (src/aihwkit/inference/converter/base.py). -/
structure Conv (P : Type) where
  toG : List ℝ → Except PyErr (List (List ℝ) × P)
  backW : List (List ℝ) → P → Except PyErr (List ℝ)

/-- Single pair converter. -/
noncomputable def singleConv (gMax gMin : ℝ) : Conv ℝ := ⟨singleTo gMax gMin, fun gs r => singleBack gMin gs (some r)⟩
/-- N pair converter. -/
noncomputable def nPairConv (fs : List ℝ) (gMax gMin : ℝ) : Conv ℝ := ⟨nPairTo fs gMax gMin, nPairBack fs⟩
/-- Custom pair converter. -/
noncomputable def customConv (s : Spec ℝ) : Conv ℝ := ⟨customTo s, customBack (s.map (·.1))⟩
/-- Single device converter. The converter returns one tensor; the noise models iterate over its rows and
`convert_back_to_weights` stacks them again, which fails for an empty list. Simplification: one row. -/
noncomputable def deviceConv (gMax gMin : ℝ) : Conv (ℝ × ℝ) where
  toG w := do
    let (g, p) ← deviceTo gMax gMin w
    return ([g], p)
  backW gs p := match gs with
    | [] => .error .runtimeError
    | g :: _ => deviceBack gMin g (some p.1) (some p.2)

/-- The three hooks of a noise model: programming (conductance, Gaussian), drift coefficient (conductance, Gaussian) and
drift at a time (conductance, coefficient, Gaussian). -/
structure NoiseModel where
  prog : Except PyErr (ℝ → ℝ → ℝ)
  nu : ℝ → ℝ → ℝ
  drift : ℝ → Except PyErr (ℝ → ℝ → ℝ → ℝ)

/-- Random numbers of a tensor list: by slice and position. -/
abbrev Draw := Nat → Nat → ℝ

/-- base.py:74-98 `apply_programming_noise`: noisy weights and drift coefficients. -/
noncomputable def applyProgramming {P : Type} (c : Conv P) (m : NoiseModel) (w : List ℝ) (ξ η : Draw) :
    Except PyErr (List ℝ × List (List ℝ)) := do
  let (gs, p) ← c.toG w
  let f ← m.prog
  let noisy := gs.mapIdx fun k g => g.mapIdx fun i x => f x (ξ k i)
  let nus := gs.mapIdx fun k g => g.mapIdx fun i x => m.nu x (η k i)
  let w' ← c.backW noisy p
  return (w', nus)

/-- base.py:100-127 `apply_drift_noise`. -/
noncomputable def applyDrift {P : Type} (c : Conv P) (m : NoiseModel) (w : List ℝ) (nus : List (List ℝ)) (t : ℝ)
    (ξ : Draw) : Except PyErr (List ℝ) := do
  let (gs, p) ← c.toG w
  let f ← m.drift t
  let noisy := (List.zip gs nus).mapIdx fun k q => (List.zip q.1 q.2).mapIdx fun i y => f y.1 y.2 (ξ k i)
  c.backW noisy p

/-- base.py:43-72 `apply_noise`: without a positive time nothing is appended to `noisy_conductances`. -/
noncomputable def applyNoise {P : Type} (c : Conv P) (m : NoiseModel) (w : List ℝ) (t : ℝ) (ξ η ζ : Draw) :
    Except PyErr (List ℝ) := do
  let (gs, p) ← c.toG w
  let f ← m.prog
  if t > 0 then
    let d ← m.drift t
    c.backW (gs.mapIdx fun k g => g.mapIdx fun i x => d (f x (ξ k i)) (m.nu x (η k i)) (ζ k i)) p
  else c.backW [] p

/-! ## PCM-like models -/

/-- The models built on a polynomial programming noise and power-law drift: `PCMLikeNoiseModel`,
`StateIndependentNoiseModel`, `HermesNoiseModel` (one or two devices). -/
inductive Kind where
  | pcm | stateIndependent | hermes1 | hermes2
  deriving DecidableEq

/-- Attributes of an instance; `ref = none`: the attribute `prog_coeff_g_max_reference` does not exist. -/
structure Pars where
  kind : Kind
  gMax : ℝ
  ref : Option ℝ
  coeff : List ℝ
  progScale : ℝ := 1
  readScale : ℝ := 1
  driftScale : ℝ := 1
  t0 : ℝ := 20
  tRead : ℝ := 1 / 4000000
  nuMean : ℝ := 1 / 10
  nuStd : ℝ := 1 / 20

/-- pcm.py:80-92, hermes.py:133-148: the reference attribute after the constructor, from the arguments
`prog_coeff` and `prog_coeff_g_max_reference`. `dflt`: default coefficients and their reference. -/
noncomputable def initRef (gMax : ℝ) (dflt : List ℝ × ℝ) (coeffArg : Option (List ℝ)) (refArg : Option ℝ) :
    List ℝ × Option ℝ :=
  let ref := if refArg.isNone then some gMax else none
  match coeffArg with
  | none => (dflt.1, some dflt.2)
  | some c => (c, ref)

/-- Default coefficients and reference: pcm.py:86-88, hermes.py:139-146. -/
noncomputable def defaults : Kind → List ℝ × ℝ
  | .pcm => ([26348 / 100000, 1965 / 1000, -(11731 / 10000)], 25)
  | .hermes2 => ([16603222 / 100000000, 471806468 / 100000000, -(848101252 / 100000000), 468961419 / 100000000], 207 / 10)
  | .hermes1 => ([15781817 / 100000000, 232443916 / 100000000, -(216310839 / 100000000), 68841818 / 100000000], 1035 / 100)
  | .stateIndependent => ([1 / 5, 0, 0], 1)

/-- pcm.py:64-98, hermes.py:91-154 and custom.py:111-139 constructors, given `g_max` of the converter. The
state-independent model has no reference. -/
noncomputable def mkPars (k : Kind) (gMax : ℝ) (coeffArg : Option (List ℝ)) (refArg : Option ℝ)
    (progScale readScale driftScale t0 tRead : ℝ) : Pars :=
  let (coeff, ref) := initRef gMax (defaults k) coeffArg refArg
  { kind := k, gMax := gMax, ref := if k = .stateIndependent then some gMax else ref, coeff := coeff,
    progScale := progScale, readScale := readScale, driftScale := driftScale, t0 := t0, tRead := tRead }

/-- pcm.py:107-112 (hermes.py:164-169, custom.py:148-152): the accumulation loop. -/
noncomputable def sigLoop (x : ℝ) : ℝ → ℝ → List ℝ → ℝ
  | _, sig, [] => sig
  | mat, sig, c :: cs => sigLoop x (mat * x) (sig + mat * x * c) cs

/-- pcm.py:100-118 `apply_programming_noise_to_conductance` (hermes.py:156-174, custom.py:141-157). -/
noncomputable def progNoise (p : Pars) : Except PyErr (ℝ → ℝ → ℝ) :=
  match p.coeff with
  | [] => .error .indexError
  | c0 :: cs =>
    match p.ref with
    | none => .error .attributeError
    | some r =>
      if r = 0 then .error .nanInf
      else .ok fun g ξ => max (g + p.progScale * (sigLoop (g / p.gMax) 1 c0 cs * (p.gMax / r)) * ξ) 0

/-- `log` of a clamped quantity as torch computes it: `log 0 = -inf`, so the clamp yields its upper bound. -/
noncomputable def logClamp (a b lo hi x : ℝ) : ℝ := if x = 0 then hi else min (max (-a * Real.log x + b) lo) hi

/-- Mean of the drift coefficient as a function of the relative conductance: pcm.py:123-126, hermes.py:196-205,
custom.py:162. -/
noncomputable def muDrift (p : Pars) (x : ℝ) : ℝ :=
  match p.kind with
  | .pcm => logClamp (155 / 10000) (244 / 10000) (49 / 1000) (1 / 10) x
  | .stateIndependent => p.nuMean
  | .hermes1 | .hermes2 =>
    if x < 945 / 10000 then logClamp (387 / 10000) (-(182 / 10000)) (72 / 1000) (13 / 100) x
    else -(436 / 10000) * x ^ 2 - 126 / 10000 * x + 736 / 10000

/-- Standard deviation of the drift coefficient: pcm.py:127, hermes.py:206-221, custom.py:163. -/
noncomputable def sigDrift (p : Pars) (x : ℝ) : ℝ :=
  match p.kind with
  | .pcm => logClamp (125 / 10000) (-(59 / 10000)) (8 / 1000) (45 / 1000) x
  | .stateIndependent => p.nuStd
  | .hermes1 =>
    if x < 3039 / 10000 then logClamp (12 / 1000) (-(23 / 10000)) (124 / 10000) (4 / 100) x
    else -(165 / 10000) * x ^ 2 + 116 / 10000 * x + 104 / 10000
  | .hermes2 =>
    if x < 3055 / 10000 then logClamp (117 / 10000) (-(57 / 10000)) (91 / 10000) (4 / 100) x
    else -(118 / 10000) * x ^ 2 + 93 / 10000 * x + 73 / 10000

/-- pcm.py:120-130 `generate_drift_coefficients` (hermes.py:176-225, custom.py:159-166). -/
noncomputable def nuCoeff (p : Pars) (g ξ : ℝ) : ℝ :=
  let x := max |g / p.gMax| (1 / 10000000)
  max |muDrift p x + sigDrift p x * ξ| 0 * p.driftScale

/-- Amplitude of the read noise for programmed conductance `g` and drifted conductance `gd`: pcm.py:147-153,
hermes.py:242-270, custom.py:184-187. -/
noncomputable def readAmp (p : Pars) (g gd : ℝ) : ℝ :=
  match p.kind with
  | .pcm => |gd| * min (88 / 10000 / max ((|g| / p.gMax) ^ (65 / 100 : ℝ)) (1 / 1000)) (1 / 5)
  | .stateIndependent => |gd / p.gMax|
  | .hermes1 =>
    let x := |g| / p.gMax
    |gd| * (if x < 1591 / 10000 then logClamp (78 / 10000) (38 / 10000) (179 / 10000) (4 / 100) x
      else 664 / 10000 * x ^ 3 - 1352 / 10000 * x ^ 2 + 768 / 10000 * x + 88 / 10000)
  | .hermes2 =>
    let x := |g| / p.gMax
    |gd| * (if x < 16 / 100 then logClamp (117 / 10000) (-(69 / 10000)) (15 / 1000) (4 / 100) x
      else 69 / 10000 * x ^ 3 - 280 / 10000 * x ^ 2 + 211 / 10000 * x + 123 / 10000)

/-- pcm.py:141-144: power-law drift. -/
noncomputable def driftPart (p : Pars) (t g ν : ℝ) : ℝ := if t > p.t0 then g * (t / p.t0) ^ (-ν) else g

/-- pcm.py:132-158 `apply_drift_noise_to_conductance` (hermes.py:227-274, custom.py:168-191); the square root of a negative
logarithm is NaN. -/
noncomputable def driftNoise (p : Pars) (tInf : ℝ) : Except PyErr (ℝ → ℝ → ℝ → ℝ) :=
  let t := tInf + p.t0
  if t > 0 then
    let a := (t + p.tRead) / (2 * p.tRead)
    if a < 1 then .error .nanInf
    else .ok fun g ν ξ =>
      let gd := driftPart p t g ν
      max (gd + readAmp p g gd * p.readScale * Real.sqrt (Real.log a) * ξ) 0
  else .ok fun g _ _ => max g 0

/-- The noise model object. -/
noncomputable def pcmModel (p : Pars) : NoiseModel := ⟨progNoise p, nuCoeff p, driftNoise p⟩

/-! ## Custom drift model -/

/-- pcm.py:224-243: the keys of the dictionary passed as `custom_drift_model` (as a list; contents valid). The check only
asks that every given key is known; `g_lst` is then accessed. -/
def customDriftInit (keys : List String) : Except PyErr Unit :=
  if keys.all (["g_lst", "nu_mean_lst", "nu_std_lst"].contains ·) then
    if keys.contains "g_lst" then .ok () else .error .keyError
  else .error .assertion

/-- pcm.py:268-280 `generate_drift_coefficients`: `Tensor(None)` for a missing key. -/
def customDriftGenerate (keys : List String) : Except PyErr Unit :=
  if keys.contains "g_lst" ∧ keys.contains "nu_mean_lst" ∧ keys.contains "nu_std_lst" then .ok ()
  else .error .typeError

/-- pcm.py:282-299: coefficient from the interpolated mean and standard deviation; `g_lst` ascending. -/
noncomputable def customNu (gs means stds : List ℝ) (driftScale g ξ : ℝ) : ℝ :=
  let g := if g > gs.foldl max (gs.headD 0) then gs.foldl max (gs.headD 0) else g
  let g := if g < gs.foldl min (gs.headD 0) then gs.foldl min (gs.headD 0) else g
  let nu := |interp (gs.zip means) g + interp (gs.zip stds) g * ξ|
  (if nu < 0 then 0 else nu) * driftScale

/-! ## ReRAM models -/

/-- `ReRamWan2022NoiseModel`; `ref = none`: attribute `coeff_g_max_reference` does not exist. -/
structure Wan where
  gMax : ℝ
  ref : Option ℝ
  coeffs : List (ℝ × List ℝ)
  scale : ℝ := 1

/-- reram.py:77-89: default coefficients per time (in increasing powers). -/
noncomputable def wanDefault : List (ℝ × List ℝ) :=
  [(1, [348 / 1000, 16030 / 1000, -(43853 / 1000), 45393 / 1000, -(16815 / 1000)]),
   (86400, [701 / 1000, 22086 / 1000, -(50773 / 1000), 47095 / 1000, -(16458 / 1000)]),
   (172800, [782 / 1000, 20274 / 1000, -(43507 / 1000), 37062 / 1000, -(11934 / 1000)])]

/-- reram.py:67-96 constructor. With default coefficients the reference 40 is stored in another attribute
(`prog_coeff_g_max_reference`), which is never read. -/
noncomputable def wanInit (gMax : ℝ) (coeffArg : Option (List (ℝ × List ℝ))) (refArg : Option ℝ) (scale : ℝ) : Wan where
  gMax := gMax
  ref := if refArg.isNone then some gMax else none
  coeffs := coeffArg.getD wanDefault
  scale := scale

/-- reram.py:98-111 `_apply_poly`. -/
noncomputable def wanPoly (m : Wan) (coeff : List ℝ) : Except PyErr (ℝ → ℝ → ℝ) :=
  match coeff with
  | [] => .error .indexError
  | c0 :: cs =>
    match m.ref with
    | none => .error .attributeError
    | some r =>
      if r = 0 then .error .nanInf
      else .ok fun g ξ => max (g + m.scale * (sigLoop (g / m.gMax) 1 c0 cs * (m.gMax / r)) * ξ) 0

/-- Entry with the smallest time (`min(list(coeff_dic.keys()))`; dictionary keys are distinct). -/
noncomputable def minKey : List (ℝ × List ℝ) → Option (ℝ × List ℝ)
  | [] => none
  | e :: es => match minKey es with
    | none => some e
    | some f => if e.1 ≤ f.1 then some e else some f

/-- reram.py:113-165: programming with the smallest time, "drift" re-programs the *target* conductance (the drift
coefficient is the target) with the coefficients of exactly this time. -/
noncomputable def wanModel (m : Wan) : NoiseModel where
  prog := match minKey m.coeffs with
    | none => .error .valueError
    | some e => wanPoly m e.2
  nu g _ := g
  drift t := match m.coeffs.find? (fun e => e.1 = t) with
    | none => .error .argumentError
    | some e => do
      let f ← wanPoly m e.2
      return fun _ g ξ => max (f g ξ) 0

/-- `ReRamCMONoiseModel`: acceptance ranges with linear coefficients, decay and read parameters. -/
structure Cmo where
  gMax : ℝ
  gMin : ℝ
  coeffs : List (ℝ × List ℝ)
  range : ℝ
  progScale : ℝ := 1
  readScale : ℝ := 1
  driftScale : ℝ := 1
  decayMean : ℝ := -(8900206 / 100000000)
  decayStd0 : ℝ := 4201137 / 100000000
  decayStd1 : ℝ := 41183342 / 100000000
  readK : ℝ := 277316483 / 10000000000
  tRead : ℝ := 1 / 1000000

/-- reram.py:229-233: default coefficients for the acceptance ranges 0.2 and 2 (increasing powers). -/
noncomputable def cmoDefault : List (ℝ × List ℝ) :=
  [(2 / 10, [81107 / 100000000, 106879 / 100000000]), (2, [112185391 / 10000000000, 1129027418 / 100000000000])]

/-- reram.py:238-240: an acceptance range that is not a key is replaced by the smallest key. -/
noncomputable def cmoRange (coeffs : List (ℝ × List ℝ)) (range : ℝ) : ℝ :=
  if (coeffs.find? (fun e => e.1 = range)).isSome then range else ((minKey coeffs).map (·.1)).getD 0

/-- reram.py:210-250 constructor with default parameters but the given range. -/
noncomputable def cmoInit (gMax gMin : ℝ) (coeffArg : Option (List (ℝ × List ℝ))) (range : ℝ) : Cmo where
  gMax := gMax
  gMin := gMin
  coeffs := coeffArg.getD cmoDefault
  range := cmoRange (coeffArg.getD cmoDefault) range

/-- reram.py:252-278 programming: no clamping. `g_max / coeff_g_max_reference` is 1. -/
noncomputable def cmoProg (m : Cmo) : Except PyErr (ℝ → ℝ → ℝ) :=
  match m.coeffs.find? (fun e => e.1 = m.range) with
  | none => .error .keyError
  | some e => match e.2 with
    | [] => .error .indexError
    | c0 :: cs => .ok fun g ξ => g + sigLoop g 1 c0 cs * ξ * m.progScale

/-- reram.py:301-312: conductance after relaxation, before read noise, for the Gaussian `ξ`. -/
noncomputable def cmoRelaxed (m : Cmo) (t g ξ : ℝ) : ℝ :=
  g + m.decayMean * Real.log t * m.driftScale + ξ * (m.decayStd0 * Real.log t + m.decayStd1) * m.driftScale

/-- reram.py:285-317 drift of one conductance with Gaussians `ξ`, `ξ'`. Times below the read time (negative logarithm
under the root, or logarithm of a negative time) and non-positive relaxed conductances (`log10`) are NaN. -/
noncomputable def cmoDrift (m : Cmo) (t g ξ ξ' : ℝ) : Except PyErr ℝ :=
  if t = 0 then .ok g
  else if t < 0 ∨ (t + m.tRead) / (2 * m.tRead) < 1 then .error .nanInf
  else
    let gd := cmoRelaxed m t g ξ
    if gd ≤ 0 then .error .nanInf
    else
      let s := m.readK * Real.logb 10 gd * Real.sqrt (Real.log ((t + m.tRead) / (2 * m.tRead)))
      .ok (min (max (gd + s * ξ' * m.readScale) m.gMin) m.gMax)

end Aihw.Inference
