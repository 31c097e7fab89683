import Verif.FloatPrec.Lemmas2

/-!
# Decoding bit patterns; the cast as a function on sign and magnitude
-/
namespace Aihw.FloatPrec

/-- Value with a sign. -/
def signed (s : Nat) (q : ℚ) : ℚ := if s = 1 then -q else q

theorem abs_signed (s : Nat) (q : ℚ) (h : 0 ≤ q) : |signed s q| = q := by
  unfold signed; split_ifs
  · rw [abs_neg, abs_of_nonneg h]
  · exact abs_of_nonneg h

theorem signed_sub (s : Nat) (a b : ℚ) : |signed s a - signed s b| = |a - b| := by
  unfold signed; split_ifs
  · rw [← abs_neg]; congr 1; ring
  · rfl

theorem isRound_signed {p : Nat} (s : Nat) {v r : ℚ} (h : IsRound p v r) : IsRound p (signed s v) (signed s r) := by
  unfold signed; split_ifs
  · exact isRound_neg h
  · exact h

theorem val_eq (s b : Nat) (hs : s < 2) (hb : b < 2 ^ 31) :
    val (s * 2 ^ 31 + b) =
      if b / 2 ^ 23 = 255 then (if b % 2 ^ 23 = 0 then .inf (decide (s = 1)) else .nan) else .fin (signed s (mag b)) := by
  have h1 : (s * 2 ^ 31 + b) % 2 ^ 31 = b := by omega
  have h2 : (2 ^ 31 ≤ s * 2 ^ 31 + b) ↔ s = 1 := by omega
  unfold val signed
  rw [h1]
  simp only [h2, decide_eq_true_eq]

theorem val_zero : val 0 = .fin 0 := by
  have := val_eq 0 0 (by norm_num) (by norm_num)
  rw [zero_mul, zero_add] at this
  rw [this, if_neg (by norm_num)]
  have h0 : mag 0 = 0 := by rw [mag_sub 0 (by norm_num)]; simp
  rw [h0]; rfl

/-- Sign and magnitude of a normal number. -/
theorem normal_decode {x : Nat} {v : ℚ} (h : Normal x v) :
    ∃ s b, s < 2 ∧ x = s * 2 ^ 31 + b ∧ 1 ≤ b / 2 ^ 23 ∧ b / 2 ^ 23 < 255 ∧ b < 2 ^ 31 ∧ v = signed s (mag b) := by
  obtain ⟨hx, hv, hn⟩ := h
  have hs : x / 2 ^ 31 < 2 := Nat.div_lt_of_lt_mul (by norm_num at hx ⊢; exact hx)
  have hb : x % 2 ^ 31 < 2 ^ 31 := Nat.mod_lt _ (by positivity)
  have hxe : x = x / 2 ^ 31 * 2 ^ 31 + x % 2 ^ 31 := by omega
  generalize x / 2 ^ 31 = s at *
  generalize x % 2 ^ 31 = b at *
  subst hxe
  rw [val_eq s b hs hb] at hv
  by_cases h255 : b / 2 ^ 23 = 255
  · rw [if_pos h255] at hv
    split_ifs at hv <;> cases hv
  · rw [if_neg h255] at hv
    injection hv with hv
    refine ⟨s, b, hs, rfl, ?_, by omega, hb, hv.symm⟩
    by_contra hc
    have : mag b < (2 : ℚ) ^ (((1 : Nat) : ℤ) - 127) := (mag_lt_pow b 1 le_rfl).2 (by omega)
    rw [← hv, abs_signed _ _ (mag_nonneg b)] at hn
    norm_num at this hn
    linarith

theorem rnd_normal_ge (k b : Nat) (hk : 0 < k) (hk' : k ≤ 23) (h : 1 ≤ b / 2 ^ 23) : 1 ≤ rnd k b / 2 ^ 23 := by
  have h1 : 2 ^ 23 ≤ b := by omega
  have h2 := rnd_mono k h1
  rw [rnd_fix k _ hk (Nat.pow_dvd_pow 2 hk')] at h2
  omega

/-- The rounded magnitude of a normal number. -/
theorem normal_round (ml b : Nat) (hml : ml ≤ 22) (h1 : 1 ≤ b / 2 ^ 23) :
    IsRound (ml + 1) (mag b) (mag (rnd (23 - ml) b)) ∧ |mag (rnd (23 - ml) b) - mag b| ≤ mag b / 2 ^ (ml + 1) := by
  have hk : 0 < 23 - ml := by omega
  have hm : b % 2 ^ 23 < 2 ^ 23 := Nat.mod_lt _ (by positivity)
  have hsp := split b
  generalize b / 2 ^ 23 = e at *
  generalize b % 2 ^ 23 = m at *
  subst hsp
  rw [mag_norm e m h1 hm, mag_rnd (23 - ml) e m hk (by omega) h1 hm]
  refine ⟨rnd_isRound ml (2 ^ 23 + m) hml (by omega) (by omega) _, ?_⟩
  have hq : (0 : ℚ) < 2 ^ ((e : ℤ) - 150) := by positivity
  rw [← sub_mul, abs_mul, abs_of_pos hq, mul_div_right_comm]
  apply mul_le_mul_of_nonneg_right _ hq.le
  obtain ⟨n1, n2⟩ := rnd_near (23 - ml) (2 ^ 23 + m) hk
  have c1 : (rnd (23 - ml) (2 ^ 23 + m) : ℚ) ≤ (2 ^ 23 + m : Nat) + 2 ^ (23 - ml - 1) := by exact_mod_cast n1
  have c2 : ((2 ^ 23 + m : Nat) : ℚ) ≤ rnd (23 - ml) (2 ^ 23 + m) + 2 ^ (23 - ml - 1) := by exact_mod_cast n2.le
  have e1 : (2 : ℚ) ^ (23 - ml - 1) = 2 ^ 23 / 2 ^ (ml + 1) := by
    rw [eq_div_iff (by positivity), ← pow_add]
    congr 1; omega
  have e2 : (2 : ℚ) ^ 23 / 2 ^ (ml + 1) ≤ ((2 ^ 23 + m : Nat) : ℚ) / 2 ^ (ml + 1) := by
    apply div_le_div_of_nonneg_right _ (by positivity)
    push_cast
    have : (0 : ℚ) ≤ m := by positivity
    linarith
  rw [e1] at c1 c2
  generalize ((2 ^ 23 + m : Nat) : ℚ) = M at *
  generalize (rnd (23 - ml) (2 ^ 23 + m) : ℚ) = R at *
  generalize (2 : ℚ) ^ 23 / 2 ^ (ml + 1) = D at *
  rw [abs_le]
  constructor <;> linarith

theorem bias_eq (el : Nat) (h : 1 ≤ el) : bias el = (biasEl el : ℤ) := by
  unfold bias
  rw [biasEl_eq]
  have : 1 ≤ 2 ^ (el - 1) := Nat.one_le_two_pow
  push_cast [Nat.cast_sub this]
  rfl

theorem lt_minNormal (el b : Nat) (h1 : 1 ≤ el) (h8 : el ≤ 8) : mag b < minNormal el ↔ b / 2 ^ 23 + biasEl el ≤ 127 := by
  have hb := biasEl_le el h8
  have := mag_lt_pow b (128 - biasEl el) (by omega)
  unfold minNormal
  have e : (1 : ℤ) - bias el = ((128 - biasEl el : Nat) : ℤ) - 127 := by
    rw [bias_eq el h1]; omega
  rw [e, this]
  omega

theorem lt_tooLarge (el b : Nat) (h1 : 1 ≤ el) : mag b < tooLarge el ↔ b / 2 ^ 23 < 128 + biasEl el := by
  have := mag_lt_pow b (128 + biasEl el) (by omega)
  unfold tooLarge
  have e : bias el + 1 = ((128 + biasEl el : Nat) : ℤ) - 127 := by
    rw [bias_eq el h1]; push_cast; ring
  rw [e, this]

/-- What the cast yields for a finite rounded magnitude. -/
def outcome (el : Nat) (r : ℚ) (over : Val) : Val :=
  if |r| < minNormal el then .fin 0 else if |r| < tooLarge el then .fin r else over

theorem cast_inf (el ml : Nat) (h1 : 2 ≤ el) (h8 : el ≤ 8) (hm : ml ≤ 22) (toInf : Bool) (hi : toInf = true ∨ el = 8) (s b : Nat)
    (hs : s < 2) (hb : b < 2 ^ 31) (hn : 1 ≤ b / 2 ^ 23) (h255 : b / 2 ^ 23 < 255) :
    val (castOne el ml toInf (s * 2 ^ 31 + b)) =
      outcome el (signed s (mag (rnd (23 - ml) b))) (.inf (decide (s = 1))) := by
  have hx : s * 2 ^ 31 + b < 2 ^ 32 := by omega
  have d1 : (s * 2 ^ 31 + b) / 2 ^ 31 = s := by omega
  have d2 : (s * 2 ^ 31 + b) % 2 ^ 31 = b := by omega
  have hrb : roundBody ml b = rnd (23 - ml) b := by unfold roundBody; rw [if_neg (by omega)]
  have hle := roundBody_le ml b hm hb
  have hge := rnd_normal_ge (23 - ml) b (by omega) (by omega) hn
  rw [castOne_eq el ml (by omega) h8 hm toInf _ hx, d1, d2]
  rw [hrb] at hle ⊢
  unfold outcome
  rw [abs_signed _ _ (mag_nonneg _), ]
  simp only [lt_minNormal el _ (by omega : 1 ≤ el) h8, lt_tooLarge el _ (by omega : 1 ≤ el)]
  generalize rnd (23 - ml) b = b' at *
  have hfin : b' / 2 ^ 23 < 255 → val (s * 2 ^ 31 + b') = .fin (signed s (mag b')) := by
    intro h
    rw [val_eq s b' hs (by omega), if_neg (by omega)]
  have hinf : val (s * 2 ^ 31 + 255 * 2 ^ 23) = .inf (decide (s = 1)) := by
    rw [val_eq s _ hs (by norm_num), if_pos (by norm_num), if_pos (by norm_num)]
  by_cases h88 : el = 8
  · subst h88
    have c0 : ¬ (b' / 2 ^ 23 + biasEl 8 ≤ 127) := by rw [biasEl_8]; omega
    rw [if_neg c0, if_neg c0, biasEl_8]
    have key : val (s * 2 ^ 31 + b') =
        if b' / 2 ^ 23 < 128 + 127 then .fin (signed s (mag b')) else .inf (decide (s = 1)) := by
      by_cases c : b' / 2 ^ 23 < 128 + 127
      · rw [if_pos c, hfin c]
      · have : b' = 255 * 2 ^ 23 := by omega
        rw [if_neg c, this, hinf]
    cases toInf
    · rw [if_neg (by simp)]
      rw [← key]
      unfold satBody
      rw [biasEl_8]
      by_cases c : b' / 2 ^ 23 < 128 + 127
      · rw [if_pos c]
      · have : b' = 255 * 2 ^ 23 := by omega
        rw [if_neg c, if_neg (by simp), this]
        norm_num
    · rw [if_pos ⟨rfl, rfl⟩, key]
  · have ht : toInf = true := hi.resolve_right h88
    subst ht
    rw [if_neg (by simp [h88])]
    by_cases c0 : b' / 2 ^ 23 + biasEl el ≤ 127
    · rw [if_pos c0, if_pos c0, val_zero]
    · rw [if_neg c0, if_neg c0]
      unfold satBody
      have := biasEl_lt el (by omega)
      by_cases c : b' / 2 ^ 23 < 128 + biasEl el
      · rw [if_pos c, if_pos c, hfin (by omega)]
      · rw [if_neg c, if_neg c, if_pos rfl, hinf]

/-- The mantissa of a large number under the reserved exponent. -/
theorem wrap_mag (el b : Nat) (h1 : 1 ≤ el) (hel : 128 + biasEl el ≤ b / 2 ^ 23) :
    ∃ j : Nat, mag ((128 + biasEl el) * 2 ^ 23 + b % 2 ^ 23) = mag b / 2 ^ j ∧ tooLarge el ≤ mag b / 2 ^ j ∧
      mag b / 2 ^ j < 2 * tooLarge el := by
  have hm : b % 2 ^ 23 < 2 ^ 23 := Nat.mod_lt _ (by positivity)
  refine ⟨b / 2 ^ 23 - (128 + biasEl el), ?_⟩
  have e : mag ((128 + biasEl el) * 2 ^ 23 + b % 2 ^ 23) = mag b / 2 ^ (b / 2 ^ 23 - (128 + biasEl el)) := by
    have hsp := split b
    conv_rhs => rw [hsp, mag_norm _ _ (by omega) hm]
    rw [mag_norm _ _ (by omega) hm]
    have e2 : (b / 2 ^ 23 * 2 ^ 23 + b % 2 ^ 23) / 2 ^ 23 = b / 2 ^ 23 := by omega
    rw [e2, mul_div_assoc]
    congr 1
    rw [← zpow_natCast, ← zpow_sub₀ (by norm_num : (2 : ℚ) ≠ 0)]
    congr 1
    omega
  refine ⟨e, ?_, ?_⟩
  · rw [← e]
    by_contra hc
    rw [not_le, lt_tooLarge el _ h1] at hc
    omega
  · rw [← e]
    have := mag_lt_pow ((128 + biasEl el) * 2 ^ 23 + b % 2 ^ 23) (129 + biasEl el) (by omega)
    have e3 : 2 * tooLarge el = (2 : ℚ) ^ (((129 + biasEl el : Nat) : ℤ) - 127) := by
      unfold tooLarge
      rw [bias_eq el h1]
      have : (((129 + biasEl el : Nat) : ℤ) - 127) = 1 + ((biasEl el : ℤ) + 1) := by push_cast; ring
      rw [this, zpow_add₀ (by norm_num : (2 : ℚ) ≠ 0) 1, zpow_one]
    rw [e3, this]
    omega

theorem wrap_range (B m : Nat) (hB : B ≤ 63) (hm : m < 2 ^ 23) :
    (128 + B) * 2 ^ 23 + m < 2 ^ 31 ∧ ¬ ((128 + B) * 2 ^ 23 + m) / 2 ^ 23 = 255 := by omega

theorem cast_wrap (el ml : Nat) (h1 : 2 ≤ el) (h7 : el ≤ 7) (hm : ml ≤ 22) (s b : Nat)
    (hs : s < 2) (hb : b < 2 ^ 31) (h255 : b / 2 ^ 23 < 255) :
    ∃ j : Nat, val (castOne el ml false (s * 2 ^ 31 + b)) =
      outcome el (signed s (mag (rnd (23 - ml) b))) (.fin (signed s (mag (rnd (23 - ml) b)) / 2 ^ j)) ∧
      (tooLarge el ≤ mag (rnd (23 - ml) b) → tooLarge el ≤ mag (rnd (23 - ml) b) / 2 ^ j ∧
        mag (rnd (23 - ml) b) / 2 ^ j < 2 * tooLarge el) := by
  have hx : s * 2 ^ 31 + b < 2 ^ 32 := by omega
  have d1 : (s * 2 ^ 31 + b) / 2 ^ 31 = s := by omega
  have d2 : (s * 2 ^ 31 + b) % 2 ^ 31 = b := by omega
  have hrb : roundBody ml b = rnd (23 - ml) b := by unfold roundBody; rw [if_neg (by omega)]
  have hle := roundBody_le ml b hm hb
  rw [castOne_eq el ml (by omega) (by omega) hm false _ hx, d1, d2]
  rw [hrb] at hle ⊢
  unfold outcome
  rw [abs_signed _ _ (mag_nonneg _), if_neg (by simp)]
  simp only [lt_minNormal el _ (by omega : 1 ≤ el) (by omega : el ≤ 8), lt_tooLarge el _ (by omega : 1 ≤ el)]
  have hL : ∀ b', tooLarge el ≤ mag b' ↔ ¬ b' / 2 ^ 23 < 128 + biasEl el := fun b' => by
    rw [← lt_tooLarge el b' (by omega), not_lt]
  rw [hL]
  generalize rnd (23 - ml) b = b' at *
  have := biasEl_lt el h7
  by_cases c0 : b' / 2 ^ 23 + biasEl el ≤ 127
  · refine ⟨0, ?_, fun h => absurd (by omega) h⟩
    rw [if_pos c0, if_pos c0, val_zero]
  · by_cases c : b' / 2 ^ 23 < 128 + biasEl el
    · refine ⟨0, ?_, fun h => absurd c h⟩
      rw [if_neg c0, if_neg c0]
      unfold satBody
      rw [if_pos c, if_pos c, val_eq s b' hs (by omega), if_neg (by omega)]
    · obtain ⟨j, e1, e2, e3⟩ := wrap_mag el b' (by omega) (not_lt.1 c)
      refine ⟨j, ?_, fun _ => ⟨e2, e3⟩⟩
      rw [if_neg c0, if_neg c0]
      unfold satBody
      have hm' : b' % 2 ^ 23 < 2 ^ 23 := Nat.mod_lt _ (by positivity)
      obtain ⟨hc1, hc2⟩ := wrap_range (biasEl el) (b' % 2 ^ 23) this hm'
      rw [if_neg c, if_neg c, if_neg Bool.false_ne_true, val_eq s _ hs hc1, if_neg hc2, e1]
      unfold signed
      split_ifs <;> ring_nf

end Aihw.FloatPrec
