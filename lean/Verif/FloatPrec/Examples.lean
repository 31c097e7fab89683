import Verif.FloatPrec.Props

/-!
# Concrete cases: 1-3-4 format (bias 3: normal numbers 1/4 ... 15.5)
-/
namespace Aihw.FloatPrec

/-- 20, 24, infinity, a negative NaN, the smallest negative subnormal, 1.3, -1/128, 9 in the clipping mode: 20 and 24 are beyond the
format and unchanged. -/
example : floatPrecisionCast [0x41A00000, 0x41C00000, 0x7F800000, 0xFFC00001, 0x80000001, 0x3FA66666, 0xBC000000, 0x41100000] 3 4 false =
    .ok [0x41A00000, 0x41C00000, 0x41800000, 0xC1800000, 0, 0x3FA80000, 0, 0x41100000] := by decide +kernel

/-- The same numbers, saturating. -/
example : floatPrecisionCast [0x41A00000, 0x41C00000, 0x7F800000, 0xFFC00001, 0x80000001, 0x3FA66666, 0xBC000000, 0x41100000] 3 4 true =
    .ok [0x7F800000, 0x7F800000, 0x7F800000, 0xFF800000, 0, 0x3FA80000, 0, 0x41100000] := by decide +kernel

/-- Full exponent: the sign of the underflowed subnormal is kept in one mode only. -/
example : floatPrecisionCast [0x80000001] 8 4 true = .ok [0x80000000] ∧ floatPrecisionCast [0x80000001] 8 4 false = .ok [0] := by
  decide +kernel

/-- `1.3` and `-1/128` are normal, `9` is a fixed number of the format, `20` and infinity are beyond it. -/
example : Normal 0xBC000000 (-1 / 128) ∧ Normal 0x41A00000 20 ∧ val 0x41100000 = .fin 9 ∧ val 0x7F800000 = .inf false ∧
    val 0xFFC00001 = .nan := by
  unfold Normal
  decide +kernel

example : SigBits 5 9 := ⟨9, 0, by norm_num, by norm_num⟩

example : minNormal 3 = 1 / 4 ∧ tooLarge 3 = 16 := by decide +kernel

example : Format 3 4 ∧ ¬ Format 9 4 ∧ ¬ Format 3 2 := by unfold Format; norm_num

/-- `C71_round` for `1.3`: the value is `1.3125`. -/
example : val 0x3FA80000 = .fin (21 / 16) ∧ ∃ v, Normal 0x3FA66666 v := by
  refine ⟨by decide +kernel, (10905190 : ℚ) / 2 ^ 23, ?_⟩
  unfold Normal
  decide +kernel

end Aihw.FloatPrec
