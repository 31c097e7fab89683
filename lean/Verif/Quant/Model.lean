import Verif.Common

/-!
# Digital low-precision quantizers

Models `src/aihwkit/simulator/digital_low_precision/quantizers.py`.

Values are exact rationals.  A tensor that is quantised is given by its rank and by its rows, one
row per channel along the quantisation axis (dimension 0 for `per_channel`, dimension `axis`
otherwise; the order of the elements inside one channel does not matter to any modelled function).
Parameter tensors (`_delta`, `_zero_float`) are lists: one entry for per-tensor quantisation, one
entry per channel otherwise.
-/
namespace Aihw.Quant

/-- `torch.clamp` on integer-valued floats. -/
def clampZ (lo hi x : ℤ) : ℤ := min (max x lo) hi

/-- Parameters of one channel: `_delta` and `_zero_float` (quantizers.py:112-113 and 370).  In the log
domain `_delta` holds `log δ` and is only read through `exp` (quantizers.py:168-169, 422-423), so the
model keeps `δ` itself in both domains (simplification: `exp (log δ) = δ`, `δ > 0`). -/
structure Par where
  delta : ℚ
  zeroFloat : ℚ
  deriving DecidableEq, Repr

/-- State of `AsymmetricUniformQuantizer` (`sym = false`, quantizers.py:107-124) and of
`SymmetricUniformQuantizer` (`sym = true`, quantizers.py:367-382).  `pars = none` is the NaN
`_delta` of a quantizer that is not initialised; `view` is the rank for which `view_func` was built.
The two options `axis` and `per_channel` exclude each other (quantizers.py:121-123, 380-382). -/
structure Quantizer where
  sym : Bool
  nBits : Nat
  logDomain : Bool := false
  perChannel : Bool := false
  axis : Option Nat := none
  eps : ℚ := 1 / 100000000
  pars : Option (List Par) := none
  signed : Option Bool := none
  view : Option Nat := none
  deriving DecidableEq, Repr

/-- `int_min` (quantizers.py:155-157 and 410-411). -/
def intMin (q : Quantizer) (signed : Bool) : ℤ :=
  if q.sym then (if signed then -2 ^ (q.nBits - 1) else 0) else 0

/-- `int_max` (quantizers.py:160-162 and 414-416). -/
def intMax (q : Quantizer) (signed : Bool) : ℤ :=
  if q.sym then 2 ^ (q.nBits - (if signed then 1 else 0)) - 1 else 2 ^ q.nBits - 1

/-- `scale` (quantizers.py:165-169 and 419-423). -/
def scale (q : Quantizer) (p : Par) : ℚ := if q.logDomain then p.delta else max p.delta q.eps

/-- `zero_point` (quantizers.py:172-175 and 426-427). -/
def zeroPoint (q : Quantizer) (p : Par) : ℤ :=
  if q.sym then 0 else clampZ 0 (2 ^ q.nBits - 1) (roundHE p.zeroFloat)

/-- One element of `to_integer_forward` (quantizers.py:223-238 and 475-490). -/
def toInt1 (q : Quantizer) (signed : Bool) (p : Par) (x : ℚ) : ℤ :=
  clampZ (intMin q signed) (intMax q signed) (roundHE (x / scale q p) + zeroPoint q p)

/-- One element of `forward` (quantizers.py:259-260 and 511-512). -/
def quant1 (q : Quantizer) (signed : Bool) (p : Par) (x : ℚ) : ℚ :=
  scale q p * ((toInt1 q signed p x - zeroPoint q p : ℤ) : ℚ)

/-- `_tensorize_min_max`, the part on the values (quantizers.py:311-312 and 558-559). -/
def tensorize (q : Quantizer) (r : ℚ × ℚ) : ℚ × ℚ := (min r.1 0, max r.2 q.eps)

/-- `_delta.copy_(new)` with the resize of a quantizer that is not initialised
(quantizers.py:332-337 and 569-571): an initialised quantizer keeps its shape, so the new values must have the
same number of channels or be a single value, which is broadcast. -/
def store (old : Option (List Par)) (new : List Par) : Except PyErr (List Par) :=
  match old, new with
  | none, ps => .ok ps
  | some o, [p] => .ok (List.replicate o.length p)
  | some o, ps => if ps.length = o.length then .ok ps else .error .runtimeError

/-- The parameters of one channel for a given range (quantizers.py:328-330 and 564-568).
A division by zero (`int_max = 0`) gives NaN or inf in torch. -/
def parOf (q : Quantizer) (signed : Bool) (r : ℚ × ℚ) : Except PyErr Par :=
  let r := tensorize q r
  if intMax q signed = 0 then .error .nanInf
  else if q.sym then .ok { delta := max |r.1| r.2 / intMax q signed, zeroFloat := 0 }
  else
    let d := (r.2 - r.1) / intMax q signed
    .ok { delta := d, zeroFloat := -r.1 / d }

/-- `x_min.min() < 0` over the channels, after the clamp of `_tensorize_min_max`
(quantizers.py:565). -/
def anyNeg (rs : List (ℚ × ℚ)) : Bool := rs.any fun r => r.1 < 0

/-- `set_quant_range` (quantizers.py:316-340, 563-574, with the check 305-309, 552-556).  `rs` lists `(x_min, x_max)` per channel.
Simplifications: an empty range tensor and a symmetric quantizer with `n_bits = 0` and negative
range (where `int_max = -0.5`) are reported as `other`. -/
def setQuantRange (q : Quantizer) (rs : List (ℚ × ℚ)) : Except PyErr Quantizer :=
  if 1 < rs.length ∧ q.perChannel = false ∧ q.axis = none then .error .valueError
  else if rs = [] then .error .other
  else
    let signed := anyNeg (rs.map (tensorize q))
    if q.sym = true ∧ signed = true ∧ q.nBits = 0 then .error .other
    else do
      let ps ← rs.mapM (parOf q signed)
      let ps ← store q.pars ps
      return { q with pars := some ps, signed := if q.sym then some signed else q.signed }

/-- `reset` (quantizers.py:346-348 and 579-581): parameters and sign are forgotten, the view is
kept. -/
def reset (q : Quantizer) : Quantizer :=
  { q with pars := none, signed := if q.sym then none else q.signed }

/-- `_adjust_params_per_axis` and `_adjust_params_per_channel` (quantizers.py:264-285 and 516-532):
the rank for which the view of the parameters is built.  With `axis` it is rebuilt on every call;
with `per_channel` it is built once, for the rank of the first input whose rank differs from that
of the parameters (1). -/
def adjustView (q : Quantizer) (rank : Nat) : Except PyErr Quantizer :=
  let q := if q.axis.isSome then { q with view := some rank } else q
  if q.perChannel then
    if q.view = none then
      match q.pars with
      | none => .error .quantNotInit
      | some _ => .ok (if rank ≠ 1 then { q with view := some rank } else q)
    else .ok q
  else .ok q

/-- The sign flag that is used by the integer grid: the symmetric quantizer asserts that it is set
(quantizers.py:510), the asymmetric one does not have it. -/
def signOf (q : Quantizer) : Except PyErr Bool :=
  if q.sym then (match q.signed with | some s => .ok s | none => .error .assertion) else .ok false

/-- Broadcast of the parameter tensor against the rows of the input.  A single parameter is used for
every row; a list of parameters must be viewed with the rank of the input and have one entry per
row.  Simplification: a view of another rank, which torch aligns with another axis of the input, is
reported as `other`. -/
def paramsFor (q : Quantizer) (rank nrows : Nat) : Except PyErr (List Par) :=
  match q.pars with
  | none => .error .quantNotInit
  | some [p] => .ok (List.replicate nrows p)
  | some ps =>
    if q.view = some rank ∨ (q.view = none ∧ rank = 1) then
      if ps.length = nrows then .ok ps else .error .runtimeError
    else .error .other

/-- `forward` (quantizers.py:240-262 and 492-514). -/
def forward (q : Quantizer) (rank : Nat) (rows : List Vec) :
    Except PyErr (Quantizer × List Vec) := do
  let q ← adjustView q rank
  let signed ← signOf q
  let ps ← paramsFor q rank rows.length
  return (q, List.zipWith (fun p row => row.map (quant1 q signed p)) ps rows)

/-- `to_integer_forward` on a tensor (quantizers.py:223-238 and 475-490); it uses the view that
the last `forward` left behind. -/
def toIntegerForward (q : Quantizer) (rank : Nat) (rows : List Vec) :
    Except PyErr (List (List ℤ)) := do
  -- for the symmetric quantizer `scale` is read before `int_min`
  let ps ← paramsFor q rank rows.length
  let signed ← (match signOf q with | .ok s => .ok s | .error _ => .error .quantNotInit)
  return List.zipWith (fun p row => row.map (toInt1 q signed p)) ps rows

/-- `is_initialized` (quantizers.py:147-148 and 402-403). -/
def isInit (q : Quantizer) : Bool := q.pars.isSome

/-- The tensors of a quantizer in a `state_dict`: `_delta`, `_zero_float`, `_signed`. -/
structure QState where
  pars : Option (List Par)
  signed : Option Bool

/-- `state_dict()` of a quantizer. -/
def saveState (q : Quantizer) : QState := { pars := q.pars, signed := q.signed }

/-- `_load_from_state_dict` (quantizers.py:185-212 and 437-464): the parameters take the loaded shape
and values, the sign is taken if the state has one. -/
def loadState (q : Quantizer) (s : QState) : Quantizer :=
  { q with pars := s.pars, signed := if q.sym then (match s.signed with | some b => some b | none => q.signed) else q.signed }

end Aihw.Quant
