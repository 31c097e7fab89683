import Verif.FloatPrec.Lemmas4

/-!
# C71: the float precision cast
-/
namespace Aihw.FloatPrec

theorem op_ok (xs : List Bits) (el ml : ℤ) (toInf : Bool) (h : Format el ml) :
    floatPrecisionCast xs el ml toInf = .ok (xs.map (castOne el.toNat ml.toNat toInf)) := by
  obtain ⟨h1, h2, h3, h4⟩ := h
  unfold floatPrecisionCast
  rw [if_neg (by simp [h3, h4]), if_neg (by simp [h1, h2])]

theorem op_error (xs : List Bits) (el ml : ℤ) (toInf : Bool) (h : ¬ Format el ml) :
    floatPrecisionCast xs el ml toInf = .error .runtimeError := by
  unfold floatPrecisionCast
  by_cases c : 3 ≤ ml ∧ ml ≤ 22
  · rw [if_neg (by simpa using c), if_pos]
    intro c2
    exact h ⟨c2.1, c2.2, c.1, c.2⟩
  · rw [if_pos c]

theorem op_get {xs ys : List Bits} {el ml : Nat} {toInf : Bool} (h : floatPrecisionCast xs el ml toInf = .ok ys) :
    2 ≤ el ∧ el ≤ 8 ∧ ml ≤ 22 ∧ 3 ≤ ml ∧ ∀ (i : Nat) (x : Bits), xs[i]? = some x → ys[i]? = some (castOne el ml toInf x) := by
  by_cases hf : Format el ml
  · rw [op_ok xs el ml toInf hf] at h
    injection h with h
    obtain ⟨h1, h2, h3, h4⟩ := hf
    refine ⟨by omega, by omega, by omega, by omega, ?_⟩
    intro i x hx
    rw [← h, List.getElem?_map, hx]
    rfl
  · rw [op_error xs el ml toInf hf] at h
    cases h

theorem decode (x : Nat) (hx : x < 2 ^ 32) : ∃ s b, s < 2 ∧ b < 2 ^ 31 ∧ x = s * 2 ^ 31 + b :=
  ⟨x / 2 ^ 31, x % 2 ^ 31, Nat.div_lt_of_lt_mul (by norm_num at hx ⊢; exact hx), Nat.mod_lt _ (by positivity), by omega⟩

/-- The op accepts exactly 2 to 8 exponent bits with 3 to 22 mantissa bits, raises `RuntimeError` for every other format, and treats
every element on its own. -/
theorem C71_formats (xs : List Bits) (el ml : ℤ) (toInf : Bool) :
    (¬ Format el ml → floatPrecisionCast xs el ml toInf = .error .runtimeError) ∧
    (Format el ml → ∃ ys, floatPrecisionCast xs el ml toInf = .ok ys ∧ ys.length = xs.length ∧
      ∀ (i : Nat) (x y : Bits), xs[i]? = some x → ys[i]? = some y → floatPrecisionCast [x] el ml toInf = .ok [y]) := by
  refine ⟨op_error xs el ml toInf, fun h => ⟨_, op_ok xs el ml toInf h, List.length_map _, ?_⟩⟩
  intro i x y hx hy
  rw [op_ok [x] el ml toInf h]
  rw [List.getElem?_map, hx] at hy
  injection hy with hy
  rw [← hy]; rfl

/-- Saturation to infinity (or the full exponent): a normal number is rounded to the nearest number with `ml + 1` significant bits,
ties away from zero; below the smallest normal number of the format it becomes zero, above the largest one infinity. -/
theorem C71_round {xs ys : List Bits} {el ml : Nat} {toInf : Bool} (h : floatPrecisionCast xs el ml toInf = .ok ys)
    (hi : toInf = true ∨ el = 8) {i : Nat} {x : Bits} {v : ℚ} (hx : xs[i]? = some x) (hv : Normal x v) :
    ∃ y r, ys[i]? = some y ∧ IsRound (ml + 1) v r ∧ |r - v| ≤ |v| / 2 ^ (ml + 1) ∧
      (|r| < minNormal el → val y = .fin 0) ∧
      (minNormal el ≤ |r| → |r| < tooLarge el → val y = .fin r) ∧
      (tooLarge el ≤ |r| → minNormal el ≤ |r| → val y = .inf (decide (v < 0))) := by
  obtain ⟨h1, h8, hm, -, hg⟩ := op_get h
  obtain ⟨s, b, hs, rfl, hn, h255, hb, hve⟩ := normal_decode hv
  obtain ⟨hr, hd⟩ := normal_round ml b hm hn
  have hc := cast_inf el ml h1 h8 hm toInf hi s b hs hb hn h255
  have hpos : 0 < mag b := by
    have h00 := mag_strictMono (show 0 < b by omega)
    rwa [mag_zero] at h00
  have hsgn : decide (s = 1) = decide (v < 0) := by
    rw [hve]
    unfold signed
    by_cases c : s = 1
    · simp only [c, if_true]
      simp [hpos]
    · simp only [c, if_false]
      simp [not_lt.2 hpos.le]
  refine ⟨_, signed s (mag (rnd (23 - ml) b)), hg i _ hx, ?_, ?_, ?_, ?_, ?_⟩
  · rw [hve]; exact isRound_signed s hr
  · rw [hve, signed_sub, abs_signed _ _ hpos.le]; exact hd
  · intro hlt
    rw [hc]; unfold outcome; rw [if_pos hlt]
  · intro h1 h2
    rw [hc]; unfold outcome; rw [if_neg (not_lt.2 h1), if_pos h2]
  · intro h1 h2
    rw [hc]; unfold outcome; rw [if_neg (not_lt.2 h2), if_neg (not_lt.2 h1), hsgn]

/-- Without saturation to infinity: numbers beyond the format are not clipped to the largest one; the significand stays and the
exponent becomes the reserved one. -/
theorem C71_wraps {xs ys : List Bits} {el ml : Nat} (h : floatPrecisionCast xs el ml false = .ok ys)
    (h7 : el ≤ 7) {i : Nat} {x : Bits} {v : ℚ} (hx : xs[i]? = some x) (hv : Normal x v) :
    ∃ y r, ys[i]? = some y ∧ IsRound (ml + 1) v r ∧ |r - v| ≤ |v| / 2 ^ (ml + 1) ∧
      (|r| < minNormal el → val y = .fin 0) ∧
      (minNormal el ≤ |r| → |r| < tooLarge el → val y = .fin r) ∧
      (tooLarge el ≤ |r| → minNormal el ≤ |r| →
        ∃ j : Nat, val y = .fin (r / 2 ^ j) ∧ tooLarge el ≤ |r| / 2 ^ j ∧ |r| / 2 ^ j < 2 * tooLarge el) := by
  obtain ⟨h1, h8, hm, -, hg⟩ := op_get h
  obtain ⟨s, b, hs, rfl, hn, h255, hb, hve⟩ := normal_decode hv
  obtain ⟨hr, hd⟩ := normal_round ml b hm hn
  obtain ⟨j, hc, hj⟩ := cast_wrap el ml h1 h7 hm s b hs hb h255
  refine ⟨_, signed s (mag (rnd (23 - ml) b)), hg i _ hx, ?_, ?_, ?_, ?_, ?_⟩
  · rw [hve]; exact isRound_signed s hr
  · rw [hve, signed_sub, abs_signed _ _ (mag_nonneg _)]; exact hd
  · intro hlt
    rw [hc]; unfold outcome; rw [if_pos hlt]
  · intro h1 h2
    rw [hc]; unfold outcome; rw [if_neg (not_lt.2 h1), if_pos h2]
  · intro h1 h2
    refine ⟨j, ?_, ?_⟩
    · rw [hc]; unfold outcome; rw [if_neg (not_lt.2 h2), if_neg (not_lt.2 h1)]
    · rw [abs_signed _ _ (mag_nonneg _)] at h1 ⊢
      exact hj h1

/-- Zeros and FP32 subnormals become `+0` whenever the exponent is narrower than FP32's. -/
theorem C71_subnormal_zero {xs ys : List Bits} {el ml : Nat} {toInf : Bool} (h : floatPrecisionCast xs el ml toInf = .ok ys)
    (h7 : el ≤ 7) {i : Nat} {x : Bits} {v : ℚ} (hx : xs[i]? = some x) (hlt : x < 2 ^ 32) (hv : val x = .fin v)
    (hs : |v| < (2 : ℚ) ^ (-126 : ℤ)) : ys[i]? = some 0 := by
  obtain ⟨h1, h8, hm, -, hg⟩ := op_get h
  rw [hg i x hx]
  obtain ⟨s, b, hs', hb, rfl⟩ := decode x hlt
  rw [val_eq s b hs' hb] at hv
  have hsm : b / 2 ^ 23 = 0 := by
    by_cases c : b / 2 ^ 23 = 255
    · rw [if_pos c] at hv
      split_ifs at hv <;> cases hv
    · rw [if_neg c] at hv
      injection hv with hv
      rw [← hv, abs_signed _ _ (mag_nonneg b)] at hs
      have := (mag_lt_pow b 1 le_rfl).1 (by norm_num at hs ⊢; exact hs)
      omega
  have hB := biasEl_lt el h7
  congr 1
  apply ((castOne_split el ml (by omega) h8 hm toInf s b hs' hb).1 _).1
  refine ⟨fun hc => by omega, ?_⟩
  have hle := rnd_le (23 - ml) b (2 ^ 23) (by omega) (Nat.pow_dvd_pow 2 (by omega)) (by omega)
  have hrb : roundBody ml b = rnd (23 - ml) b := by unfold roundBody; rw [if_neg (by omega)]
  rw [hrb]
  omega

/-- Full exponent: an FP32 subnormal is rounded to the nearest multiple of the format's subnormal spacing, ties away from zero;
if infinities are not requested, what stays below the smallest normal number becomes zero. -/
theorem C71_subnormal_full {xs ys : List Bits} {ml : Nat} {toInf : Bool} (h : floatPrecisionCast xs (8 : Nat) ml toInf = .ok ys)
    {i : Nat} {x : Bits} {v : ℚ} (hx : xs[i]? = some x) (hlt : x < 2 ^ 32) (hv : val x = .fin v)
    (hs : |v| < (2 : ℚ) ^ (-126 : ℤ)) :
    ∃ (y : Bits) (n : ℤ), ys[i]? = some y ∧ 2 * |n * (2 : ℚ) ^ (-126 - ml : ℤ) - v| ≤ (2 : ℚ) ^ (-126 - ml : ℤ) ∧
      (2 * |n * (2 : ℚ) ^ (-126 - ml : ℤ) - v| = (2 : ℚ) ^ (-126 - ml : ℤ) → |v| ≤ |n * (2 : ℚ) ^ (-126 - ml : ℤ)|) ∧
      val y = .fin (if toInf = false ∧ |n * (2 : ℚ) ^ (-126 - ml : ℤ)| < (2 : ℚ) ^ (-126 : ℤ) then 0
        else n * (2 : ℚ) ^ (-126 - ml : ℤ)) := by
  obtain ⟨h1, h8, hm, -, hg⟩ := op_get h
  obtain ⟨s, b, hs', hb, rfl⟩ := decode x hlt
  rw [val_eq s b hs' hb] at hv
  have hsm : b / 2 ^ 23 = 0 ∧ v = signed s (mag b) := by
    by_cases c : b / 2 ^ 23 = 255
    · rw [if_pos c] at hv
      split_ifs at hv <;> cases hv
    · rw [if_neg c] at hv
      injection hv with hv
      rw [← hv, abs_signed _ _ (mag_nonneg b)] at hs
      have := (mag_lt_pow b 1 le_rfl).1 (by norm_num at hs ⊢; exact hs)
      exact ⟨by omega, hv.symm⟩
  obtain ⟨hsm, hve⟩ := hsm
  have hle := rnd_le (23 - ml) b (2 ^ 23) (by omega) (Nat.pow_dvd_pow 2 (by omega)) (by omega)
  have hrb : roundBody ml b = rnd (23 - ml) b := by unfold roundBody; rw [if_neg (by omega)]
  obtain ⟨n1, n2⟩ := rnd_near (23 - ml) b (by omega)
  obtain ⟨R, hR⟩ := rnd_dvd (23 - ml) b
  -- value of the rounded number
  have e149 : (2 : ℚ) ^ (23 - ml) * 2 ^ (-149 : ℤ) = 2 ^ (-126 - ml : ℤ) := by
    rw [← zpow_natCast, ← zpow_add₀ (by norm_num : (2 : ℚ) ≠ 0)]
    congr 1; omega
  have hmr : mag (rnd (23 - ml) b) = (R : ℚ) * 2 ^ (-126 - ml : ℤ) := by
    have hh : mag (rnd (23 - ml) b) = (rnd (23 - ml) b : ℚ) * 2 ^ (-149 : ℤ) := by
      by_cases c : rnd (23 - ml) b = 2 ^ 23
      · have := mag_pow 1 le_rfl
        rw [one_mul] at this
        rw [c, this]
        norm_num
      · exact mag_sub _ (by omega)
    rw [hh, hR, ← e149]
    push_cast; ring
  have hmb : mag b = (b : ℚ) * 2 ^ (-149 : ℤ) := mag_sub b hsm
  have eh : (2 : ℚ) ^ (23 - ml) = 2 * 2 ^ (23 - ml - 1) := by rw [← pow_succ']; congr 1; omega
  have hu : (0 : ℚ) < 2 ^ (-149 : ℤ) := by positivity
  have c1 : (rnd (23 - ml) b : ℚ) ≤ b + 2 ^ (23 - ml - 1) := by exact_mod_cast n1
  have c2 : (b : ℚ) < rnd (23 - ml) b + 2 ^ (23 - ml - 1) := by exact_mod_cast n2
  have hdiff : mag (rnd (23 - ml) b) - mag b = ((rnd (23 - ml) b : ℚ) - b) * 2 ^ (-149 : ℤ) := by
    rw [hmr, hmb, hR, ← e149]; push_cast; ring
  have hsn : ((if s = 1 then -(R : ℤ) else R : ℤ) : ℚ) * 2 ^ (-126 - ml : ℤ) = signed s (mag (rnd (23 - ml) b)) := by
    rw [hmr]; unfold signed; split_ifs <;> push_cast <;> ring
  refine ⟨_, if s = 1 then -(R : ℤ) else R, hg i _ hx, ?_, ?_, ?_⟩
  · rw [hsn, hve, signed_sub, hdiff, ← e149, abs_mul, abs_of_pos hu, ← mul_assoc]
    apply mul_le_mul_of_nonneg_right _ hu.le
    rw [eh]
    have : |(rnd (23 - ml) b : ℚ) - b| ≤ 2 ^ (23 - ml - 1) := by rw [abs_le]; constructor <;> linarith
    linarith
  · rw [hsn, hve, signed_sub, abs_signed _ _ (mag_nonneg _), abs_signed _ _ (mag_nonneg _), hdiff, ← e149, abs_mul, abs_of_pos hu,
      ← mul_assoc]
    intro ht
    have ht := mul_right_cancel₀ hu.ne' ht
    rw [mag_le_iff]
    by_contra hc
    have hlt : (rnd (23 - ml) b : ℚ) < b := by exact_mod_cast not_le.1 hc
    rw [abs_of_neg (by linarith)] at ht
    linarith
  · rw [val_cast 8 ml (by omega) h8 hm toInf s b hs' hb, hsn, abs_signed _ _ (mag_nonneg _)]
    have hz : ∀ b' : Nat, b' ≤ 2 ^ 23 → val (s * 2 ^ 31 + b') = .fin (signed s (mag b')) := fun b' hb' => by
      rw [val_num s b' hs' (by omega), if_neg (by omega)]
    unfold castMag
    rw [hrb, biasEl_8]
    cases toInf
    · rw [if_neg (by simp)]
      have hl := mag_lt_pow (rnd (23 - ml) b) 1 le_rfl
      have e126 : (((1 : Nat) : ℤ) - 127) = -126 := by norm_num
      rw [e126] at hl
      by_cases c : mag (rnd (23 - ml) b) < 2 ^ (-126 : ℤ)
      · rw [if_pos (by have := hl.1 c; omega), if_pos ⟨rfl, c⟩, hz 0 (by norm_num), mag_zero]
        unfold signed; simp
      · have c' : ¬ rnd (23 - ml) b / 2 ^ 23 < 1 := fun hh => c (hl.2 hh)
        rw [if_neg (by omega), if_neg (fun hh => c hh.2)]
        unfold satBody
        rw [biasEl_8, if_pos (by omega), hz _ hle]
    · rw [if_pos ⟨rfl, rfl⟩, if_neg (by simp), hz _ hle]

/-- Infinities and NaN: the sign is kept; the result is an infinity — also for NaN — or, without saturation to infinity, the power
of two just beyond the format. -/
theorem C71_nonfinite {xs ys : List Bits} {el ml : Nat} {toInf : Bool} (h : floatPrecisionCast xs el ml toInf = .ok ys)
    {i : Nat} {x : Bits} (hx : xs[i]? = some x) (hlt : x < 2 ^ 32) (hv : ∀ v, val x ≠ .fin v) :
    ∃ y, ys[i]? = some y ∧
      (toInf = true ∨ el = 8 → val y = .inf (decide (2 ^ 31 ≤ x))) ∧
      (toInf = false → el ≤ 7 → val y = .fin (if 2 ^ 31 ≤ x then -tooLarge el else tooLarge el)) := by
  obtain ⟨h1, h8, hm, -, hg⟩ := op_get h
  refine ⟨_, hg i x hx, ?_⟩
  obtain ⟨s, b, hs', hb, rfl⟩ := decode x hlt
  have h255 : b / 2 ^ 23 = 255 := by
    by_contra c
    exact hv _ (by rw [val_eq s b hs' hb, if_neg c])
  have hrb : roundBody ml b = 255 * 2 ^ 23 := by unfold roundBody; rw [if_pos h255]
  have hsg : (2 ^ 31 ≤ s * 2 ^ 31 + b) ↔ s = 1 := by omega
  have hB := biasEl_le el h8
  rw [val_cast el ml (by omega) h8 hm toInf s b hs' hb]
  simp only [hsg]
  have hinf : val (s * 2 ^ 31 + 255 * 2 ^ 23) = .inf (decide (s = 1)) := by
    rw [val_num s _ hs' le_rfl, if_pos rfl]
  unfold castMag
  rw [hrb]
  have g1 : ¬ 255 * 2 ^ 23 / 2 ^ 23 + biasEl el ≤ 127 := by omega
  have g2 : ¬ 255 * 2 ^ 23 / 2 ^ 23 < 128 + biasEl el := by omega
  constructor
  · intro hi
    rw [if_neg g1]
    unfold satBody
    rw [if_neg g2]
    rcases hi with hi | hi
    · rw [if_pos hi, ite_self]; exact hinf
    · subst hi
      rw [biasEl_8]
      have e : (128 + 127) * 2 ^ 23 + 255 * 2 ^ 23 % 2 ^ 23 = 255 * 2 ^ 23 := by norm_num
      rw [e, ite_self, ite_self]; exact hinf
  · intro ht h7
    subst ht
    have := biasEl_lt el h7
    rw [if_neg (by simp), if_neg g1]
    unfold satBody
    rw [if_neg g2, if_neg Bool.false_ne_true]
    have e : (128 + biasEl el) * 2 ^ 23 + 255 * 2 ^ 23 % 2 ^ 23 = (128 + biasEl el) * 2 ^ 23 := by norm_num
    rw [e, val_num s _ hs' (by omega), if_neg (by omega), mag_pow _ (by omega)]
    unfold signed tooLarge
    rw [bias_eq el (by omega)]
    have e2 : ((128 + biasEl el : Nat) : ℤ) - 127 = (biasEl el : ℤ) + 1 := by push_cast; ring
    rw [e2]

/-- Casting twice is casting once. -/
theorem C71_idempotent {xs ys : List Bits} {el ml : ℤ} {toInf : Bool} (h : floatPrecisionCast xs el ml toInf = .ok ys)
    (hx : ∀ x ∈ xs, x < 2 ^ 32) : floatPrecisionCast ys el ml toInf = .ok ys := by
  have hf : Format el ml := by
    by_contra hc
    rw [op_error xs el ml toInf hc] at h
    cases h
  rw [op_ok xs el ml toInf hf] at h
  injection h with h
  rw [op_ok ys el ml toInf hf]
  congr 1
  rw [← h, List.map_map]
  apply List.map_congr_left
  intro x hmem
  obtain ⟨h1, h2, h3, h4⟩ := hf
  have h8 : el.toNat ≤ 8 := by omega
  have h1' : 1 ≤ el.toNat := by omega
  have hm : ml.toNat ≤ 22 := by omega
  generalize el.toNat = e at *
  generalize ml.toNat = m at *
  obtain ⟨s, b, hs', hb, rfl⟩ := decode x (hx x hmem)
  rw [Function.comp_apply]
  obtain ⟨a, c⟩ := castOne_split e m h1' h8 hm toInf s b hs' hb
  have hz : castOne e m toInf 0 = 0 := by
    obtain ⟨a, c⟩ := castOne_split e m h1' h8 hm toInf 0 0 (by norm_num) (by norm_num)
    by_cases hd : dropped e m toInf 0
    · exact (a hd).1
    · have := c hd
      rw [castMag_zero e m h8 hm] at this
      simpa using this
  by_cases hd : dropped e m toInf b
  · rw [(a hd).1, hz]
  · rw [c hd]
    obtain ⟨i1, i2⟩ := castMag_idem e m h1' h8 hm toInf b hb
    have hl := castMag_le e m h8 hm toInf b hb
    rw [(castOne_split e m h1' h8 hm toInf s _ hs' (by omega)).2 (i2 hd), i1]

/-- Saturation to infinity (or the full exponent) keeps the order. -/
theorem C71_monotone {xs ys : List Bits} {el ml : Nat} {toInf : Bool} (h : floatPrecisionCast xs el ml toInf = .ok ys)
    (hi : toInf = true ∨ el = 8) {i j : Nat} {x₁ x₂ : Bits} (h₁ : xs[i]? = some x₁) (h₂ : xs[j]? = some x₂)
    (hx₁ : x₁ < 2 ^ 32) (hx₂ : x₂ < 2 ^ 32) (hn : val x₁ ≠ .nan ∧ val x₂ ≠ .nan) (hle : Val.le (val x₁) (val x₂)) :
    ∃ y₁ y₂, ys[i]? = some y₁ ∧ ys[j]? = some y₂ ∧ Val.le (val y₁) (val y₂) := by
  obtain ⟨h1, h8, hm, -, hg⟩ := op_get h
  refine ⟨_, _, hg i x₁ h₁, hg j x₂ h₂, ?_⟩
  obtain ⟨s, b, hs, hb, rfl⟩ := decode x₁ hx₁
  obtain ⟨t, c, ht, hc, rfl⟩ := decode x₂ hx₂
  have hnum : ∀ (s b : Nat), s < 2 → b < 2 ^ 31 → val (s * 2 ^ 31 + b) ≠ .nan → b ≤ 255 * 2 ^ 23 := by
    intro s b hs hb hh
    by_contra hc
    exact hh (by rw [val_eq s b hs hb, if_pos (by omega), if_neg (by omega)])
  have hb' := hnum s b hs hb hn.1
  have hc' := hnum t c ht hc hn.2
  rw [val_cast el ml (by omega) h8 hm toInf s b hs hb, val_cast el ml (by omega) h8 hm toInf t c ht hc]
  rw [val_le_iff s t b c hs ht hb' hc'] at hle
  rw [val_le_iff s t _ _ hs ht (castMag_le el ml h8 hm toInf b hb) (castMag_le el ml h8 hm toInf c hc)]
  exact ord_mono (castMag_zero el ml h8 hm toInf) (255 * 2 ^ 23)
    (fun b c hc h => castMag_mono el ml toInf hi h8 hm (by omega) h) s t b c hb' hc' hle

/-- A number of the format is not changed, in either mode. -/
theorem C71_fixed {xs ys : List Bits} {el ml : Nat} {toInf : Bool} (h : floatPrecisionCast xs el ml toInf = .ok ys)
    {i : Nat} {x : Bits} {v : ℚ} (hx : xs[i]? = some x) (hlt : x < 2 ^ 32) (hv : val x = .fin v) (hs : SigBits (ml + 1) v)
    (hmin : minNormal el ≤ |v|) (hmax : |v| < tooLarge el) : ys[i]? = some x := by
  obtain ⟨h1, h8, hm, -, hg⟩ := op_get h
  rw [hg i x hx]
  have hB := biasEl_le el h8
  have hN : Normal x v := by
    refine ⟨hlt, hv, le_trans ?_ hmin⟩
    unfold minNormal
    apply zpow_le_zpow_right₀ (by norm_num)
    rw [bias_eq el (by omega)]
    omega
  obtain ⟨s, b, hs', rfl, hn, h255, hb, hve⟩ := normal_decode hN
  obtain ⟨hr, -⟩ := normal_round ml b hm hn
  have hr' := isRound_signed s hr
  rw [← hve] at hr'
  have h0 := (hr'.2 v hs).1
  rw [sub_self, abs_zero] at h0
  have heq : signed s (mag (rnd (23 - ml) b)) = v := by
    have := abs_eq_zero.1 (le_antisymm h0 (abs_nonneg _))
    linarith
  have hmb : mag (rnd (23 - ml) b) = mag b := by
    have := congrArg abs heq
    rwa [hve, abs_signed _ _ (mag_nonneg _), abs_signed _ _ (mag_nonneg _)] at this
  have hbb : rnd (23 - ml) b = b := mag_strictMono.injective hmb
  have hrb : roundBody ml b = b := by unfold roundBody; rw [if_neg (by omega), hbb]
  rw [hve, abs_signed _ _ (mag_nonneg _)] at hmin hmax
  have g1 : ¬ b / 2 ^ 23 + biasEl el ≤ 127 := fun hc => absurd ((lt_minNormal el b (by omega) h8).2 hc) (not_lt.2 hmin)
  have g2 := (lt_tooLarge el b (by omega)).1 hmax
  congr 1
  rw [(castOne_split el ml (by omega) h8 hm toInf s b hs' hb).2 (fun hd => g1 (by have := hd.2; rwa [hrb] at this))]
  congr 1
  unfold castMag satBody
  rw [hrb, if_neg g1, if_pos g2, ite_self]

/-- Changing the sign of the input changes the sign of the result's value. -/
theorem C71_odd {xs ys : List Bits} {el ml : Nat} {toInf : Bool} (h : floatPrecisionCast xs el ml toInf = .ok ys)
    {i j : Nat} {x : Bits} (hx : x < 2 ^ 31) (hi : xs[i]? = some x) (hj : xs[j]? = some (x + 2 ^ 31)) :
    ∃ y y', ys[i]? = some y ∧ ys[j]? = some y' ∧ val y' = (val y).neg := by
  obtain ⟨h1, h8, hm, -, hg⟩ := op_get h
  refine ⟨_, _, hg i _ hi, hg j _ hj, ?_⟩
  have e0 := val_cast el ml (by omega) h8 hm toInf 0 x (by norm_num) hx
  have e1 := val_cast el ml (by omega) h8 hm toInf 1 x (by norm_num) hx
  have f0 : 0 * 2 ^ 31 + x = x := by rw [Nat.zero_mul, Nat.zero_add]
  have f1 : 1 * 2 ^ 31 + x = x + 2 ^ 31 := by rw [Nat.one_mul, Nat.add_comm]
  have hl := castMag_le el ml h8 hm toInf x hx
  rw [f0] at e0
  rw [f1] at e1
  rw [e0, e1, val_num 0 _ (by norm_num) hl, val_num 1 _ (by norm_num) hl]
  by_cases c : castMag el ml toInf x = 255 * 2 ^ 23
  · rw [if_pos c, if_pos c]; rfl
  · rw [if_neg c, if_neg c]; rfl

/-- A negative number that underflows becomes `+0`: the sign is lost. -/
theorem C71_underflow_sign {xs ys : List Bits} {el ml : Nat} {toInf : Bool} (h : floatPrecisionCast xs el ml toInf = .ok ys)
    {i : Nat} {x y : Bits} {v : ℚ} (hx : xs[i]? = some x) (hv : Normal x v) (hy : ys[i]? = some y) (h0 : val y = .fin 0) :
    y = 0 := by
  obtain ⟨h1, h8, hm, -, hg⟩ := op_get h
  rw [hg i x hx] at hy
  injection hy with hy
  obtain ⟨s, b, hs, rfl, hn, h255, hb, hve⟩ := normal_decode hv
  obtain ⟨a, c⟩ := castOne_split el ml (by omega) h8 hm toInf s b hs hb
  by_cases hd : dropped el ml toInf b
  · rw [← hy, (a hd).1]
  · exfalso
    have hrb : roundBody ml b = rnd (23 - ml) b := by unfold roundBody; rw [if_neg (by omega)]
    have hge := rnd_normal_ge (23 - ml) b (by omega) (by omega) hn
    have hp : castMag el ml toInf b ≠ 0 := by
      unfold dropped at hd
      unfold castMag
      by_cases c8 : el = 8 ∧ toInf
      · rw [if_pos c8, hrb]; omega
      · rw [if_neg c8, if_neg (fun hc => hd ⟨c8, hc⟩)]
        unfold satBody
        split_ifs <;> omega
    rw [← hy, val_cast el ml (by omega) h8 hm toInf s b hs hb,
      val_num s _ hs (castMag_le el ml h8 hm toInf b hb)] at h0
    split_ifs at h0 with c1
    injection h0 with h0
    have := congrArg abs h0
    rw [abs_signed _ _ (mag_nonneg _), abs_zero, ← mag_zero] at this
    exact hp (mag_strictMono.injective this)

theorem not_mono_nat (B : Nat) : ((128 + B) * 2 ^ 23 + 2 ^ 22) / 2 ^ 23 = 128 + B ∧ ((129 + B) * 2 ^ 23) / 2 ^ 23 = 129 + B ∧
    ((128 + B) * 2 ^ 23) / 2 ^ 23 = 128 + B ∧ ((128 + B) * 2 ^ 23 + 2 ^ 22) % 2 ^ 23 = 2 ^ 22 ∧ ((129 + B) * 2 ^ 23) % 2 ^ 23 = 0 ∧
    (128 + B) * 2 ^ 23 + 2 ^ 22 < (129 + B) * 2 ^ 23 ∧ (128 + B) * 2 ^ 23 < (128 + B) * 2 ^ 23 + 2 ^ 22 := by omega

/-- Without saturation to infinity the cast does not keep the order, for any narrower exponent and any mantissa. -/
theorem C71_not_monotone (el ml : Nat) (h2 : 2 ≤ el) (h7 : el ≤ 7) (h3 : 3 ≤ ml) (h22 : ml ≤ 22) :
    ∃ x₁ x₂ y₁ y₂ : Bits, ∃ a₁ a₂ b₁ b₂ : ℚ, floatPrecisionCast [x₁, x₂] el ml false = .ok [y₁, y₂] ∧
      val x₁ = .fin a₁ ∧ val x₂ = .fin a₂ ∧ val y₁ = .fin b₁ ∧ val y₂ = .fin b₂ ∧ a₁ < a₂ ∧ b₂ < b₁ ∧ b₂ = tooLarge el := by
  have hB := biasEl_lt el h7
  have hF : Format (el : ℤ) (ml : ℤ) := by unfold Format; omega
  have key : ∀ b : Nat, b / 2 ^ 23 < 255 → 2 ^ (23 - ml) ∣ b → 128 + biasEl el ≤ b / 2 ^ 23 →
      castOne el ml false b = (128 + biasEl el) * 2 ^ 23 + b % 2 ^ 23 := by
    intro b hb hd hge
    have hx : b < 2 ^ 31 := by omega
    have hrb : roundBody ml b = b := roundBody_fix ml b h22 (by omega) hd
    have := (castOne_split el ml (by omega) (by omega) h22 false 0 b (by norm_num) hx).2
      (fun hd => by have := hd.2; rw [hrb] at this; omega)
    rw [zero_mul, zero_add, zero_add] at this
    rw [this]
    unfold castMag satBody
    rw [hrb, if_neg (by simp), if_neg (by omega), if_neg (by omega), if_neg Bool.false_ne_true]
  have hv : ∀ b : Nat, b / 2 ^ 23 < 255 → val b = .fin (mag b) := by
    intro b hb
    have := val_num 0 b (by norm_num) (by omega)
    rw [zero_mul, zero_add] at this
    rw [this, if_neg (by omega)]; rfl
  have hd23 : ∀ n : Nat, 2 ^ (23 - ml) ∣ n * 2 ^ 23 := fun n => Dvd.dvd.mul_left (Nat.pow_dvd_pow 2 (by omega)) _
  have hd22 : 2 ^ (23 - ml) ∣ 2 ^ 22 := Nat.pow_dvd_pow 2 (by omega)
  obtain ⟨q1, q2, q3, m1, m2, l1, l2⟩ := not_mono_nat (biasEl el)
  have hv1 := hv ((128 + biasEl el) * 2 ^ 23 + 2 ^ 22) (by rw [q1]; omega)
  have hv2 := hv ((129 + biasEl el) * 2 ^ 23) (by rw [q2]; omega)
  have hv3 := hv ((128 + biasEl el) * 2 ^ 23) (by rw [q3]; omega)
  have k1 := key ((128 + biasEl el) * 2 ^ 23 + 2 ^ 22) (by rw [q1]; omega) (Dvd.dvd.add (hd23 _) hd22) (by rw [q1])
  have k2 := key ((129 + biasEl el) * 2 ^ 23) (by rw [q2]; omega) (hd23 _) (by rw [q2]; omega)
  rw [m1] at k1
  rw [m2, add_zero] at k2
  refine ⟨(128 + biasEl el) * 2 ^ 23 + 2 ^ 22, (129 + biasEl el) * 2 ^ 23, (128 + biasEl el) * 2 ^ 23 + 2 ^ 22,
    (128 + biasEl el) * 2 ^ 23, _, _, _, _, ?_, hv1, hv2, hv1, hv3, mag_strictMono l1, mag_strictMono l2, ?_⟩
  · rw [op_ok _ _ _ _ hF]
    simp only [Int.toNat_natCast, List.map_cons, List.map_nil, k1, k2]
  · rw [mag_pow _ (by omega)]
    unfold tooLarge
    rw [bias_eq el (by omega)]
    have e2 : ((128 + biasEl el : Nat) : ℤ) - 127 = (biasEl el : ℤ) + 1 := by push_cast; ring
    rw [e2]

/-- The gradient of the cast cannot be computed: the backward pass always raises. -/
theorem C71_backward_raises (g : List Bits) : castBackward g = .error .runtimeError := rfl

end Aihw.FloatPrec
