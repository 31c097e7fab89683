import Verif.Common
import Mathlib.Data.Nat.Bitwise
import Mathlib.Data.Rat.Floor
import Mathlib.Tactic.NormNum
import Mathlib.Tactic.Linarith

/-!
# Model of the float precision cast

src/aihwkit/extension/extension_src/ops/float_prec_common.h, float_prec_op.cpp (float_prec_op.cu has the same bodies) and
src/aihwkit/extension/functions.py.  A `float` is its bit pattern, a natural number below `2^32`; `uint32_t` operations are the
bitwise operations of natural numbers, sums modulo `2^32`.
-/
namespace Aihw.FloatPrec

/-- Bit pattern of an IEEE single. -/
abbrev Bits := Nat

/-- `0x7F800000`. -/
def expMask : Nat := 0x7F800000

/-- float_prec_common.h:8, float_prec_op.cpp:22. -/
def highBit (ml : Nat) : Nat := 1 <<< (22 - ml)

/-- float_prec_common.h:9, float_prec_op.cpp:24: `~((h << 1) - 1)`. -/
def validMask (ml : Nat) : Nat := 0xFFFFFFFF ^^^ ((highBit ml <<< 1) - 1)

/-- float_prec_common.h:17-25, float_prec_op.cpp:22-28: keep the upper mantissa bits and round; infinities and NaN lose the
mantissa. -/
def roundBits (ml : Nat) (x : Bits) : Bits :=
  let up := (x &&& highBit ml) <<< 1
  let overflow := expMask &&& x = expMask
  let y := x &&& validMask ml
  if overflow then y &&& 0xFF800000 else (y + up) % 2 ^ 32

/-- float_prec_op.cpp:16-36 `precisionCastFloatExp8CPU`. -/
def castExp8 (ml : Nat) (x : Bits) : Bits := roundBits ml x

/-- float_prec_common.h:5 `bias_el`. -/
def biasEl (el : Nat) : Nat := 1 <<< (el - 1) - 1
/-- float_prec_common.h:6 `sat_el`. -/
def satEl (el : Nat) : Nat := 1 <<< el - 1
/-- float_prec_common.h:7 `sat_exp`. -/
def satExp (el : Nat) : Nat := (satEl el + 127 - biasEl el) <<< 23

/-- float_prec_common.h:26 `f32_exp` (the unsigned difference is read as a signed number). -/
def f32Exp (el : Nat) (x : Bits) : Int := ((x &&& expMask) >>> 23 : Nat) - 127 + biasEl el

/-- float_prec_common.h:27-32. -/
def saturate (el : Nat) (toInf : Bool) (x : Bits) : Bits :=
  if toInf then if f32Exp el x ≥ satEl el then (x ||| expMask) &&& 0xFF800000 else x
  else if f32Exp el x ≥ satEl el then satExp el ||| (x &&& (0xFFFFFFFF ^^^ expMask)) else x

/-- float_prec_common.h:12-37 `FLOATPREC_BODY` with rounding, float_prec_op.cpp:38-43. -/
def castBody (el ml : Nat) (toInf : Bool) (x : Bits) : Bits :=
  let y := roundBits ml x
  if f32Exp el y ≤ 0 then 0 else saturate el toInf y

/-- float_prec_op.cpp:45-67 `floatPrecisionCastCPU`, one element. -/
def castOne (el ml : Nat) (toInf : Bool) (x : Bits) : Bits :=
  if el = 8 ∧ toInf then castExp8 ml x else castBody el ml toInf x

/-- float_prec_op.cpp:82-144: the op; `TORCH_CHECK` raises `RuntimeError` for other formats. -/
def floatPrecisionCast (x : List Bits) (el ml : Int) (toInf : Bool) : Except PyErr (List Bits) :=
  if ¬ (3 ≤ ml ∧ ml ≤ 22) then .error .runtimeError
  else if ¬ (2 ≤ el ∧ el ≤ 8) then .error .runtimeError
  else .ok (x.map (castOne el.toNat ml.toNat toInf))

/-- functions.py:26-35: `backward` returns one gradient, although `apply` was given four arguments; torch requires one gradient
per argument (more are allowed if they are `None`). -/
def autogradCheck {α : Type} (nArgs : Nat) (grads : List α) : Except PyErr (List α) :=
  if grads.length < nArgs then .error .runtimeError else .ok grads

/-- functions.py:59-63 and 26-35: gradient of `FloatPrecisionCast`. -/
def castBackward (grad : List Bits) : Except PyErr (List (List Bits)) := autogradCheck 4 [grad]

/-! ## Values -/

/-- What a bit pattern means. -/
inductive Val where
  | fin (q : ℚ)
  | inf (neg : Bool)
  | nan
deriving DecidableEq

/-- Magnitude of the lower 31 bits of a finite number (IEEE 754 single). -/
def mag (b : Nat) : ℚ :=
  if b / 2 ^ 23 = 0 then (b : ℚ) * (2 : ℚ) ^ (-149 : ℤ)
  else ((2 ^ 23 + b % 2 ^ 23 : Nat) : ℚ) * (2 : ℚ) ^ (((b / 2 ^ 23 : Nat) : ℤ) - 150)

/-- IEEE 754 single: sign, exponent, mantissa. -/
def val (x : Bits) : Val :=
  let neg := decide (2 ^ 31 ≤ x)
  let b := x % 2 ^ 31
  if b / 2 ^ 23 = 255 then (if b % 2 ^ 23 = 0 then .inf neg else .nan)
  else .fin (if neg then -mag b else mag b)

end Aihw.FloatPrec
