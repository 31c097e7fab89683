import Verif.GpuIo.Model
import Verif.GpuNm.Spec

/-!
# What the analog pass on the GPU should compute, sample by sample
-/
open scoped BigOperators

namespace Aihw.GpuIo

open Aihw.CppFwd (MVPar)
open Aihw.GpuNm (place)

variable {K : Type} [Field K] [LinearOrder K] [IsStrictOrderedRing K] [FloorRing K]

/-- Value `j` of sample `b` of an array with `n` values per sample. -/
def view (trans : Bool) (n m : ℕ) (a : Arr K) (b j : ℕ) : K := a (place trans n m b j)

/-- The weights as a matrix from inputs to outputs. -/
def Ctx.mat (c : Ctx K) (W : Arr K) (i j : ℕ) : K := if c.tr then W (i * c.dSz + j) else W (j * c.dSz + i)

/-- The random numbers of one sample. -/
def Ctx.drawsOf (c : Ctx K) (dr : Draws K) (b : ℕ) : CppFwd.Draws K where
  inU := view c.inT c.nIn c.m dr.inU b
  inG := view c.inT c.nIn c.m dr.inG b
  wG := fun p => view c.outT c.nOut c.m (dr.wG p) b
  outU := fun p => view c.outT c.nOut c.m (dr.outU p) b
  outG := fun p => view c.outT c.nOut c.m (dr.outG p) b

namespace Spec

/-- Limited to plus and minus a bound, if there is one. -/
def limitTo (b : Option K) (v : K) : K :=
  match b with
  | none => v
  | some b => max (-b) (min b v)

/-- Rounded to a multiple of a resolution, if there is one; with stochastic rounding the random number `u`
shifts the value by up to half a step. -/
def toSteps (res : K) (sto : Bool) (u v : K) : K :=
  if 0 < res then (Pulsed.rint (v / res + if sto then u - 1 / 2 else 0) : ℤ) * res else v

/-- A smaller slope for negative values. -/
def slope (a v : K) : K := if v < 0 then (1 - a) * v else v

/-- The input of the crossbar: divided by the scale, rounded, noise added, limited, asymmetry. -/
def input (io : CppFwd.IO K) (s : Option K) (u g v : K) : K :=
  let v := toSteps io.inpRes io.inpSto u ((s.elim v) fun s => if 0 < s then v / s else v)
  slope io.inpAsym (limitTo io.inpBound (v + max io.inpNoise 0 * g))

/-- The value of an output after the converter: non-linearity, asymmetry and noise, rounded. The noise
comes first, except for a single sample with the same noise for all outputs (`first = false`). -/
def adc (io : CppFwd.IO K) (p : MVPar K) (first : Bool) (i : ℕ) (u g v : K) : K :=
  let v := if io.hasNLCal then p.nlf * v / (1 + |p.nl i * v|) else v
  let noise := (if 0 < io.outNoiseStd then p.outNoise i else max io.outNoise 0) * g
  let v := if first ∨ 0 < io.outNoiseStd then slope io.outAsym (v + noise) else slope io.outAsym v + noise
  toSteps io.outRes io.outSto u v

/-- Back to the scale of the inputs; nothing if that is not positive. -/
def back (s : Option K) (v : K) : K := s.elim v fun s => if 0 < s then v * s else 0

/-- The outputs of one sample before the output scale. -/
def outputs (io : CppFwd.IO K) (p : MVPar K) (first : Bool) (s : Option K) (u g y : ℕ → K) (i : ℕ) : K :=
  back s (limitTo io.outBound (adc io p first i (u i) (g i) (y i)))

/-- One sample through the analog pass: `n` inputs `x`, weights `w` (and those of the negative pass `wn`),
scale `s`. -/
def sample (io : CppFwd.IO K) (sq : K → K) (p : MVPar K) (n : ℕ) (w wn : ℕ → ℕ → K) (first : Bool)
    (s : Option K) (dr : CppFwd.Draws K) (x : ℕ → K) (i : ℕ) : K :=
  let xin := fun j => input io s (dr.inU j) (dr.inG j) (x j)
  let neg := io.singlePass sq p n wn (fun j => min (xin j) 0) (dr.wG false)
  let pos := io.singlePass sq p n w (fun j => max (xin j) 0) (dr.wG true)
  match io.mvType with
  | .posNeg => outputs io p first s (dr.outU true) (dr.outG true) (fun i => neg i + pos i) i
  | .posNegDigital =>
    outputs io p first s (dr.outU false) (dr.outG false) neg i
      + outputs io p first s (dr.outU true) (dr.outG true) pos i
  | _ => outputs io p first s (dr.outU true) (dr.outG true) (io.singlePass sq p n w xin (dr.wG true)) i

/-- The values of the outputs of a sample at the converter, for modes with one pass. -/
def values (io : CppFwd.IO K) (sq : K → K) (p : MVPar K) (n : ℕ) (w : ℕ → ℕ → K) (s : K)
    (dr : CppFwd.Draws K) (x : ℕ → K) (i : ℕ) : K :=
  adc io p true i (dr.outU true i) (dr.outG true i)
    (io.singlePass sq p n w (fun j => input io (some s) (dr.inU j) (dr.inG j) (x j)) (dr.wG true) i)

/-- A value is beyond the bound of the outputs: above, or below if that counts. For a single sample (`one`)
it counts when it is *not* to be tested. -/
def beyond (io : CppFwd.IO K) (one : Bool) (v : K) : Bool :=
  io.outBound.elim false fun b => decide (b < v) || (decide (v < -b) && (io.bmTestNeg != one))

/-- The scale of a sample in each round of bound management (counted from zero), from its value of noise
management, if there is noise management. -/
def scaleAt (one : Bool) (v : Option K) (exceeds : ℕ → K → Bool) : ℕ → K
  | 0 => v.getD 1
  | k + 1 =>
    if one then v.getD 1 * 2 ^ (k + 1)
    else if exceeds k (scaleAt one v exceeds k) then
      v.elim (scaleAt one v exceeds k * 2 ^ (k + 1)) fun v => if 0 < v then v * 2 ^ (k + 1) else 2 ^ (k + 1)
    else scaleAt one v exceeds k

/-- The limits of bound management, after a round. -/
def atLimit (io : CppFwd.IO K) (k : ℕ) : Prop :=
  (io.maxBmFactor : K) < 2 ^ k ∨ (0 < io.inpRes ∧ io.maxBmRes / io.inpRes < 2 ^ k)

end Spec

end Aihw.GpuIo
