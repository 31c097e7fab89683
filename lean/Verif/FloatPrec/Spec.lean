import Verif.FloatPrec.Model
import Mathlib.Algebra.Order.Field.Power

/-!
# Specification: rounding to few significant bits
-/
namespace Aihw.FloatPrec

/-- Numbers with at most `p` significant bits. -/
def SigBits (p : Nat) (y : ℚ) : Prop := ∃ n q : ℤ, |n| < 2 ^ p ∧ y = n * (2 : ℚ) ^ q

/-- `r` is a number with `p` significant bits nearest to `v`, ties away from zero. -/
def IsRound (p : Nat) (v r : ℚ) : Prop :=
  SigBits p r ∧ ∀ y, SigBits p y → |r - v| ≤ |y - v| ∧ (|r - v| = |y - v| → |y| ≤ |r|)

/-- Exponent bias of a format with `el` exponent bits. -/
def bias (el : Nat) : ℤ := 2 ^ (el - 1) - 1

/-- Smallest normal number of the format. -/
def minNormal (el : Nat) : ℚ := (2 : ℚ) ^ (1 - bias el)

/-- First number too large for the format. -/
def tooLarge (el : Nat) : ℚ := (2 : ℚ) ^ (bias el + 1)

/-- Order of the values without NaN. -/
def Val.le : Val → Val → Prop
  | .inf true, .nan => False
  | .inf true, _ => True
  | .nan, _ => False
  | _, .inf false => True
  | .fin a, .fin b => a ≤ b
  | _, _ => False

/-- A single-precision bit pattern of sign `neg` and value `v`, large enough to be normal. -/
def Normal (x : Bits) (v : ℚ) : Prop := x < 2 ^ 32 ∧ val x = .fin v ∧ (2 : ℚ) ^ (-126 : ℤ) ≤ |v|

/-- Negated value. -/
def Val.neg : Val → Val
  | .fin q => .fin (-q)
  | .inf n => .inf (!n)
  | .nan => .nan

/-- The formats the op accepts. -/
def Format (el ml : ℤ) : Prop := 2 ≤ el ∧ el ≤ 8 ∧ 3 ≤ ml ∧ ml ≤ 22

end Aihw.FloatPrec
