import Verif.FloatPrec.Model
import Mathlib.Tactic.IntervalCases
import Mathlib.Tactic.Ring
import Mathlib.Tactic.Positivity
import Mathlib.Tactic.FieldSimp
import Mathlib.Algebra.Order.Field.Power

/-!
# Arithmetic form of the bit operations
-/
namespace Aihw.FloatPrec

theorem and_high (x k : Nat) (hx : x < 2 ^ 32) (hk : k ≤ 32) : x &&& (2 ^ 32 - 2 ^ k) = x / 2 ^ k * 2 ^ k := by
  apply Nat.eq_of_testBit_eq
  intro i
  have hp : 0 < 2 ^ k := by positivity
  have e : 2 ^ 32 - 2 ^ k = 2 ^ 32 - ((2 ^ k - 1) + 1) := by omega
  have hlt : 2 ^ k - 1 < 2 ^ 32 := by
    have : 2 ^ k ≤ 2 ^ 32 := Nat.pow_le_pow_right (by norm_num) hk
    omega
  rw [e, Nat.testBit_and, Nat.testBit_two_pow_sub_succ hlt, Nat.testBit_two_pow_sub_one, Nat.testBit_mul_two_pow, Nat.testBit_div_two_pow]
  by_cases h : i < 32
  · by_cases h2 : i < k
    · simp [h, h2, not_le.2 h2]
    · have : k + (i - k) = i := by omega
      simp [h, h2, not_lt.1 h2]
  · have : x.testBit i = false := Nat.testBit_lt_two_pow (lt_of_lt_of_le hx (Nat.pow_le_pow_right (by norm_num) (not_lt.1 h)))
    by_cases h2 : i < k
    · simp [this, not_le.2 h2]
    · have h3 : k + (i - k) = i := by omega
      simp [this, not_lt.1 h2]

theorem validMask_eq (ml : Nat) (h : ml ≤ 22) : validMask ml = 2 ^ 32 - 2 ^ (23 - ml) := by
  interval_cases ml <;> decide

theorem highBit_eq (ml : Nat) : highBit ml = 2 ^ (22 - ml) := by
  unfold highBit; rw [Nat.one_shiftLeft]

theorem and_bit (x j : Nat) : x &&& 2 ^ j = x / 2 ^ j % 2 * 2 ^ j := by
  rw [Nat.and_two_pow]
  congr 1
  rw [Nat.testBit_eq_decide_div_mod_eq]
  have := Nat.mod_two_eq_zero_or_one (x / 2 ^ j)
  rcases this with h | h <;> rw [h] <;> rfl

theorem and_exp (x : Nat) : x &&& expMask = x / 2 ^ 23 % 256 * 2 ^ 23 := by
  have e : expMask = (2 ^ 8 - 1) * 2 ^ 23 := by decide
  apply Nat.eq_of_testBit_eq
  intro i
  have e2 : (256 : Nat) = 2 ^ 8 := by norm_num
  rw [e, Nat.testBit_and, Nat.testBit_mul_two_pow, Nat.testBit_two_pow_sub_one, Nat.testBit_mul_two_pow, e2, Nat.testBit_mod_two_pow,
    Nat.testBit_div_two_pow]
  by_cases h : 23 ≤ i
  · have : 23 + (i - 23) = i := by omega
    simp [h, Bool.and_comm]
  · simp [h]

/-- Rounding of the lower 31 bits (or of a mantissa) to multiples of `2^k`, ties up. -/
def rnd (k b : Nat) : Nat := (b + 2 ^ (k - 1)) / 2 ^ k * 2 ^ k

theorem rnd_eq (k b : Nat) (hk : 0 < k) : b / 2 ^ k * 2 ^ k + b / 2 ^ (k - 1) % 2 * 2 ^ k = rnd k b := by
  obtain ⟨j, rfl⟩ : ∃ j, k = j + 1 := ⟨k - 1, by omega⟩
  unfold rnd
  rw [← add_mul]
  congr 1
  simp only [Nat.add_sub_cancel]
  have hp : 0 < 2 ^ j := by positivity
  have e : 2 ^ (j + 1) = 2 ^ j * 2 := pow_succ 2 j
  rw [e, ← Nat.div_div_eq_div_mul, ← Nat.div_div_eq_div_mul]
  have : (b + 2 ^ j) / 2 ^ j = b / 2 ^ j + 1 := Nat.add_div_right b hp
  rw [this]
  omega

theorem rnd_le (k b c : Nat) (hk : 0 < k) (h : 2 ^ k ∣ c) (hb : b ≤ c) : rnd k b ≤ c := by
  obtain ⟨d, rfl⟩ := h
  unfold rnd
  have hp : 0 < 2 ^ k := by positivity
  have : (b + 2 ^ (k - 1)) / 2 ^ k ≤ d := by
    rw [← Nat.lt_succ_iff, Nat.div_lt_iff_lt_mul hp]
    have e : 2 ^ k = 2 * 2 ^ (k - 1) := by rw [← pow_succ']; congr 1; omega
    have hp' : 0 < 2 ^ (k - 1) := by positivity
    calc b + 2 ^ (k - 1) ≤ 2 ^ k * d + 2 ^ (k - 1) := by omega
      _ < 2 ^ k * d + 2 ^ k := by omega
      _ = (d + 1) * 2 ^ k := by ring
  calc (b + 2 ^ (k - 1)) / 2 ^ k * 2 ^ k ≤ d * 2 ^ k := Nat.mul_le_mul_right _ this
    _ = 2 ^ k * d := by ring

theorem rnd_mono (k : Nat) {b c : Nat} (h : b ≤ c) : rnd k b ≤ rnd k c := by
  unfold rnd
  exact Nat.mul_le_mul_right _ (Nat.div_le_div_right (by omega))

theorem rnd_dvd (k b : Nat) : 2 ^ k ∣ rnd k b := Dvd.intro_left _ rfl

theorem rnd_fix (k b : Nat) (hk : 0 < k) (h : 2 ^ k ∣ b) : rnd k b = b := by
  obtain ⟨d, rfl⟩ := h
  unfold rnd
  have hp : 0 < 2 ^ k := by positivity
  have hlt : 2 ^ (k - 1) < 2 ^ k := Nat.pow_lt_pow_right (by norm_num) (by omega)
  rw [Nat.mul_add_div hp, Nat.div_eq_of_lt hlt, add_zero, mul_comm]

theorem rnd_add (k a b : Nat) (h : 2 ^ k ∣ a) : rnd k (a + b) = a + rnd k b := by
  obtain ⟨d, rfl⟩ := h
  unfold rnd
  have hp : 0 < 2 ^ k := by positivity
  rw [add_assoc, Nat.mul_add_div hp]
  ring

/-- Distance to the rounded number. -/
theorem rnd_near (k b : Nat) (hk : 0 < k) : rnd k b ≤ b + 2 ^ (k - 1) ∧ b < rnd k b + 2 ^ (k - 1) := by
  unfold rnd
  have hp : 0 < 2 ^ k := by positivity
  have e : 2 ^ k = 2 * 2 ^ (k - 1) := by rw [← pow_succ']; congr 1; omega
  have h1 := Nat.div_add_mod (b + 2 ^ (k - 1)) (2 ^ k)
  have h2 := Nat.mod_lt (b + 2 ^ (k - 1)) hp
  rw [mul_comm] at h1
  omega

theorem roundBits_eq (ml : Nat) (h : ml ≤ 22) (x : Nat) (hx : x < 2 ^ 32) :
    roundBits ml x = x / 2 ^ 31 * 2 ^ 31 +
      if x % 2 ^ 31 / 2 ^ 23 = 255 then 255 * 2 ^ 23 else rnd (23 - ml) (x % 2 ^ 31) := by
  have hs : x / 2 ^ 31 < 2 := by omega
  have hk : 0 < 23 - ml := by omega
  have hk' : 23 - ml ≤ 23 := by omega
  have he : x / 2 ^ 23 % 256 = x % 2 ^ 31 / 2 ^ 23 := by omega
  unfold roundBits
  simp only
  rw [Nat.and_comm expMask, and_exp, validMask_eq ml h, and_high x _ hx (by omega), highBit_eq, and_bit, he]
  have hov : (x % 2 ^ 31 / 2 ^ 23 * 2 ^ 23 = expMask) ↔ x % 2 ^ 31 / 2 ^ 23 = 255 := by
    have : expMask = 255 * 2 ^ 23 := by decide
    rw [this]
    constructor
    · intro h'; exact Nat.eq_of_mul_eq_mul_right (by norm_num) h'
    · intro h'; rw [h']
  have hdvd : 2 ^ (23 - ml) ∣ 2 ^ 23 := Nat.pow_dvd_pow 2 hk'
  have hp : 0 < 2 ^ (23 - ml) := by positivity
  by_cases ho : x % 2 ^ 31 / 2 ^ 23 = 255
  · rw [if_pos (hov.2 ho), if_pos ho]
    have e : (0xFF800000 : Nat) = 2 ^ 32 - 2 ^ 23 := by decide
    have hlt : x / 2 ^ (23 - ml) * 2 ^ (23 - ml) < 2 ^ 32 := lt_of_le_of_lt (Nat.div_mul_le_self _ _) hx
    rw [e, and_high _ 23 hlt (by norm_num)]
    have : x / 2 ^ (23 - ml) * 2 ^ (23 - ml) / 2 ^ 23 = x / 2 ^ 23 := by
      have e3 : 2 ^ 23 = 2 ^ (23 - ml) * 2 ^ ml := by rw [← pow_add]; congr 1; omega
      rw [e3, ← Nat.div_div_eq_div_mul, Nat.mul_div_cancel _ hp, ← Nat.div_div_eq_div_mul]
    rw [this]
    have h256 : x / 2 ^ 23 = x / 2 ^ 31 * 256 + 255 := by clear this hp hdvd hov e; omega
    rw [h256]; ring
  · rw [if_neg (fun h' => ho (hov.1 h')), if_neg ho]
    have hsh1 : (x / 2 ^ (22 - ml) % 2 * 2 ^ (22 - ml)) <<< 1 = x / 2 ^ (22 - ml) % 2 * 2 ^ (23 - ml) := by
      rw [Nat.shiftLeft_eq, mul_assoc, ← pow_succ]
      congr 2
      omega
    rw [hsh1]
    have e22 : 22 - ml = 23 - ml - 1 := by omega
    rw [e22, rnd_eq _ _ hk]
    have hx' : x = x / 2 ^ 31 * 2 ^ 31 + x % 2 ^ 31 := by omega
    have hd2 : 2 ^ (23 - ml) ∣ x / 2 ^ 31 * 2 ^ 31 :=
      Dvd.dvd.mul_left (Nat.pow_dvd_pow 2 (by omega)) _
    have hr : rnd (23 - ml) x = x / 2 ^ 31 * 2 ^ 31 + rnd (23 - ml) (x % 2 ^ 31) := by
      conv_lhs => rw [hx']
      rw [rnd_add _ _ _ hd2]
    rw [hr]
    have hb : rnd (23 - ml) (x % 2 ^ 31) ≤ 255 * 2 ^ 23 := by
      apply rnd_le _ _ _ hk (Dvd.dvd.mul_left hdvd _)
      have : x % 2 ^ 31 / 2 ^ 23 < 255 := by omega
      omega
    rw [Nat.mod_eq_of_lt]
    omega

theorem biasEl_eq (el : Nat) : biasEl el = 2 ^ (el - 1) - 1 := by unfold biasEl; rw [Nat.one_shiftLeft]

theorem satEl_eq (el : Nat) (h : 1 ≤ el) : satEl el = 2 * biasEl el + 1 := by
  unfold satEl
  rw [biasEl_eq, Nat.one_shiftLeft]
  have e : 2 ^ el = 2 * 2 ^ (el - 1) := by rw [← pow_succ']; congr 1; omega
  have hp : 0 < 2 ^ (el - 1) := by positivity
  omega

theorem biasEl_le (el : Nat) (h : el ≤ 8) : biasEl el ≤ 127 := by
  rw [biasEl_eq]
  have : 2 ^ (el - 1) ≤ 2 ^ 7 := Nat.pow_le_pow_right (by norm_num) (by omega)
  omega

theorem biasEl_lt (el : Nat) (h : el ≤ 7) : biasEl el ≤ 63 := by
  rw [biasEl_eq]
  have : 2 ^ (el - 1) ≤ 2 ^ 6 := Nat.pow_le_pow_right (by norm_num) (by omega)
  omega

theorem biasEl_8 : biasEl 8 = 127 := by decide

theorem f32Exp_eq (el s b : Nat) (hb : b < 2 ^ 31) : f32Exp el (s * 2 ^ 31 + b) = (b / 2 ^ 23 : Nat) - 127 + biasEl el := by
  unfold f32Exp
  rw [and_exp, Nat.shiftRight_eq_div_pow, Nat.mul_div_cancel _ (by positivity)]
  have : (s * 2 ^ 31 + b) / 2 ^ 23 % 256 = b / 2 ^ 23 := by omega
  rw [this]

theorem sat_inf (s b : Nat) (hs : s < 2) (hb : b < 2 ^ 31) :
    ((s * 2 ^ 31 + b) ||| expMask) &&& 0xFF800000 = s * 2 ^ 31 + 255 * 2 ^ 23 := by
  have e : (0xFF800000 : Nat) = 2 ^ 32 - 2 ^ 23 := by decide
  have hx : s * 2 ^ 31 + b < 2 ^ 32 := by omega
  have hx2 : ((s * 2 ^ 31 + b) ||| expMask) < 2 ^ 32 := Nat.or_lt_two_pow hx (by decide)
  rw [e, and_high _ 23 hx2 (by norm_num)]
  have hd : ((s * 2 ^ 31 + b) ||| expMask) / 2 ^ 23 = (s * 256 + b / 2 ^ 23) ||| 255 := by
    rw [← Nat.shiftRight_eq_div_pow, Nat.shiftRight_or_distrib]
    congr 1
    rw [Nat.shiftRight_eq_div_pow]; omega
  rw [hd]
  have hq : b / 2 ^ 23 < 256 := by omega
  have : ∀ s < 2, ∀ q < 256, (s * 256 + q) ||| 255 = s * 256 + 255 := by decide +kernel
  rw [this s hs _ hq]
  ring

theorem sat_clip (s b q : Nat) (hs : s < 2) (hb : b < 2 ^ 31) (hq : q < 256) :
    (q <<< 23) ||| ((s * 2 ^ 31 + b) &&& (0xFFFFFFFF ^^^ expMask)) = s * 2 ^ 31 + q * 2 ^ 23 + b % 2 ^ 23 := by
  have e : (0xFFFFFFFF ^^^ expMask : Nat) = 2 ^ 31 ||| (2 ^ 23 - 1) := by decide
  have h31 : (s * 2 ^ 31 + b) / 2 ^ 31 % 2 = s := by omega
  have h23 : (s * 2 ^ 31 + b) % 2 ^ 23 = b % 2 ^ 23 := by omega
  rw [e, Nat.and_or_distrib_left, and_bit, Nat.and_two_pow_sub_one_eq_mod, h31, h23, Nat.shiftLeft_eq]
  have hm : b % 2 ^ 23 < 2 ^ 23 := Nat.mod_lt _ (by positivity)
  have h1 : s * 2 ^ 31 = 2 ^ 23 * (s * 256) := by ring
  have h2 : q * 2 ^ 23 = 2 ^ 23 * q := by ring
  have hor : ∀ s < 2, ∀ q < 256, q ||| (s * 256) = s * 256 + q := by decide +kernel
  have h3 : (2 ^ 23 * q) ||| (2 ^ 23 * (s * 256)) = 2 ^ 23 * (s * 256 + q) := by
    rw [← hor s hs q hq]
    apply Nat.eq_of_testBit_eq
    intro i
    rw [Nat.testBit_or, Nat.testBit_two_pow_mul, Nat.testBit_two_pow_mul, Nat.testBit_two_pow_mul, Nat.testBit_or]
    by_cases h : i ≥ 23 <;> simp [h]
  rw [h1, h2, ← Nat.or_assoc, h3, ← Nat.two_pow_add_eq_or_of_lt hm]
  ring

/-- Lower 31 bits after saturation. -/
def satBody (el : Nat) (toInf : Bool) (b : Nat) : Nat :=
  if b / 2 ^ 23 < 128 + biasEl el then b else if toInf then 255 * 2 ^ 23 else (128 + biasEl el) * 2 ^ 23 + b % 2 ^ 23

theorem saturate_eq (el : Nat) (h1 : 1 ≤ el) (h8 : el ≤ 8) (toInf : Bool) (s b : Nat) (hs : s < 2) (hb : b < 2 ^ 31) :
    saturate el toInf (s * 2 ^ 31 + b) = s * 2 ^ 31 + satBody el toInf b := by
  have hbias := biasEl_le el h8
  have hc : f32Exp el (s * 2 ^ 31 + b) ≥ satEl el ↔ ¬ b / 2 ^ 23 < 128 + biasEl el := by
    rw [f32Exp_eq el s b hb, satEl_eq el h1]
    push_cast
    omega
  unfold saturate satBody
  by_cases h : b / 2 ^ 23 < 128 + biasEl el
  · rw [if_pos h]
    have : ¬ f32Exp el (s * 2 ^ 31 + b) ≥ satEl el := fun h' => hc.1 h' h
    rw [if_neg this, if_neg this]
    cases toInf <;> rfl
  · rw [if_neg h]
    have h' := hc.2 h
    cases toInf
    · simp only [Bool.false_eq_true, if_false]
      rw [if_pos h']
      unfold satExp
      have e : satEl el + 127 - biasEl el = 128 + biasEl el := by rw [satEl_eq el h1]; omega
      rw [e, sat_clip s b _ hs hb (by omega)]
      ring
    · simp only [if_true]
      rw [if_pos h', sat_inf s b hs hb]

/-- Lower 31 bits after rounding. -/
def roundBody (ml b : Nat) : Nat := if b / 2 ^ 23 = 255 then 255 * 2 ^ 23 else rnd (23 - ml) b

theorem roundBody_le (ml b : Nat) (h : ml ≤ 22) (hb : b < 2 ^ 31) : roundBody ml b ≤ 255 * 2 ^ 23 := by
  unfold roundBody
  split_ifs with h'
  · exact le_rfl
  · apply rnd_le _ _ _ (by omega) (Dvd.dvd.mul_left (Nat.pow_dvd_pow 2 (by omega)) _)
    omega

theorem castOne_eq (el ml : Nat) (h1 : 1 ≤ el) (h8 : el ≤ 8) (hm : ml ≤ 22) (toInf : Bool) (x : Nat) (hx : x < 2 ^ 32) :
    castOne el ml toInf x =
      if el = 8 ∧ toInf then x / 2 ^ 31 * 2 ^ 31 + roundBody ml (x % 2 ^ 31)
      else if roundBody ml (x % 2 ^ 31) / 2 ^ 23 + biasEl el ≤ 127 then 0
      else x / 2 ^ 31 * 2 ^ 31 + satBody el toInf (roundBody ml (x % 2 ^ 31)) := by
  have hle := roundBody_le ml (x % 2 ^ 31) hm (Nat.mod_lt _ (by positivity))
  have hs : x / 2 ^ 31 < 2 := by omega
  have hr : roundBits ml x = x / 2 ^ 31 * 2 ^ 31 + roundBody ml (x % 2 ^ 31) := roundBits_eq ml hm x hx
  unfold castOne castExp8 castBody
  simp only
  rw [hr]
  by_cases h : el = 8 ∧ toInf = true
  · rw [if_pos h, if_pos h]
  · rw [if_neg h, if_neg h, f32Exp_eq _ _ _ (by omega), saturate_eq el h1 h8 _ _ _ hs (by omega)]
    have : ((roundBody ml (x % 2 ^ 31) / 2 ^ 23 : Nat) : Int) - 127 + biasEl el ≤ 0 ↔ roundBody ml (x % 2 ^ 31) / 2 ^ 23 + biasEl el ≤ 127 := by
      omega
    by_cases h' : roundBody ml (x % 2 ^ 31) / 2 ^ 23 + biasEl el ≤ 127
    · rw [if_pos (this.2 h'), if_pos h']
    · rw [if_neg (fun h'' => h' (this.1 h'')), if_neg h']

end Aihw.FloatPrec
