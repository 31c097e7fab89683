import Verif.FloatPrec.Lemmas
import Verif.FloatPrec.Spec

/-!
# Values of bit patterns
-/
namespace Aihw.FloatPrec

theorem mag_sub (b : Nat) (h : b / 2 ^ 23 = 0) : mag b = (b : ℚ) * (2 : ℚ) ^ (-149 : ℤ) := by unfold mag; rw [if_pos h]

theorem mag_norm (e m : Nat) (he : 1 ≤ e) (hm : m < 2 ^ 23) :
    mag (e * 2 ^ 23 + m) = ((2 ^ 23 + m : Nat) : ℚ) * (2 : ℚ) ^ ((e : ℤ) - 150) := by
  have h1 : (e * 2 ^ 23 + m) / 2 ^ 23 = e := by omega
  have h2 : (e * 2 ^ 23 + m) % 2 ^ 23 = m := by omega
  unfold mag
  rw [h1, h2, if_neg (by omega)]

theorem split (b : Nat) : b = b / 2 ^ 23 * 2 ^ 23 + b % 2 ^ 23 := by omega

theorem mag_pow (E : Nat) (hE : 1 ≤ E) : mag (E * 2 ^ 23) = (2 : ℚ) ^ ((E : ℤ) - 127) := by
  have := mag_norm E 0 hE (by norm_num)
  rw [add_zero] at this
  rw [this, add_zero]
  have e : ((2 ^ 23 : Nat) : ℚ) = (2 : ℚ) ^ (23 : ℤ) := by norm_num
  rw [e, ← zpow_add₀ (by norm_num : (2 : ℚ) ≠ 0)]
  congr 1; ring

theorem mag_nonneg (b : Nat) : 0 ≤ mag b := by
  unfold mag; split_ifs <;> positivity

theorem mag_succ_lt (b : Nat) : mag b < mag (b + 1) := by
  by_cases h0 : b / 2 ^ 23 = 0
  · rw [mag_sub b h0]
    by_cases h1 : (b + 1) / 2 ^ 23 = 0
    · rw [mag_sub _ h1]
      push_cast
      have : (0 : ℚ) < (2 : ℚ) ^ (-149 : ℤ) := by positivity
      linarith
    · have hb : b + 1 = 1 * 2 ^ 23 := by omega
      rw [hb, mag_pow 1 (by norm_num)]
      have hb' : (b : ℚ) = 2 ^ 23 - 1 := by
        have : (b : ℚ) + 1 = 2 ^ 23 := by exact_mod_cast (by omega : b + 1 = 2 ^ 23)
        linarith
      rw [hb']
      have : (2 : ℚ) ^ (((1 : Nat) : ℤ) - 127) = 2 ^ 23 * (2 : ℚ) ^ (-149 : ℤ) := by norm_num
      rw [this]
      have : (0 : ℚ) < (2 : ℚ) ^ (-149 : ℤ) := by positivity
      linarith
  · have he : 1 ≤ b / 2 ^ 23 := by omega
    have hm : b % 2 ^ 23 < 2 ^ 23 := Nat.mod_lt _ (by positivity)
    have e0 := split b
    set e := b / 2 ^ 23
    set m := b % 2 ^ 23
    have hp : (0 : ℚ) < (2 : ℚ) ^ ((e : ℤ) - 150) := by positivity
    rw [e0, mag_norm e m he hm]
    by_cases h2 : m + 1 < 2 ^ 23
    · rw [add_assoc, mag_norm e (m + 1) he h2]
      push_cast
      nlinarith
    · have h3 : e * 2 ^ 23 + m + 1 = (e + 1) * 2 ^ 23 := by omega
      rw [h3, mag_pow (e + 1) (by omega)]
      have h4 : (2 : ℚ) ^ (((e + 1 : Nat) : ℤ) - 127) = 2 ^ 24 * (2 : ℚ) ^ ((e : ℤ) - 150) := by
        rw [← zpow_natCast, ← zpow_add₀ (by norm_num : (2 : ℚ) ≠ 0)]
        congr 1; push_cast; ring
      rw [h4]
      apply mul_lt_mul_of_pos_right _ hp
      have : ((2 ^ 23 + m : Nat) : ℚ) < ((2 ^ 24 : Nat) : ℚ) := by exact_mod_cast (by omega : 2 ^ 23 + m < 2 ^ 24)
      push_cast at this ⊢
      exact this

theorem mag_strictMono : StrictMono mag := strictMono_nat_of_lt_succ mag_succ_lt

/-- Comparison with a power of two is a comparison of exponents. -/
theorem mag_lt_pow (b E : Nat) (hE : 1 ≤ E) : mag b < (2 : ℚ) ^ ((E : ℤ) - 127) ↔ b / 2 ^ 23 < E := by
  rw [← mag_pow E hE, mag_strictMono.lt_iff_lt, Nat.div_lt_iff_lt_mul (by positivity)]

/-- Rounding the bit pattern of a normal number rounds its significand. -/
theorem mag_rnd (k e m : Nat) (hk : 0 < k) (hk' : k ≤ 23) (he : 1 ≤ e) (hm : m < 2 ^ 23) :
    mag (rnd k (e * 2 ^ 23 + m)) = (rnd k (2 ^ 23 + m) : ℚ) * (2 : ℚ) ^ ((e : ℤ) - 150) := by
  have hd : 2 ^ k ∣ 2 ^ 23 := Nat.pow_dvd_pow 2 hk'
  rw [rnd_add _ _ _ (Dvd.dvd.mul_left hd _), rnd_add _ _ _ hd]
  have hr := rnd_le k m (2 ^ 23) hk hd hm.le
  by_cases h : rnd k m = 2 ^ 23
  · rw [h]
    have e1 : e * 2 ^ 23 + 2 ^ 23 = (e + 1) * 2 ^ 23 := by ring
    rw [e1, mag_pow (e + 1) (by omega)]
    have h4 : (2 : ℚ) ^ (((e + 1 : Nat) : ℤ) - 127) = 2 ^ 24 * (2 : ℚ) ^ ((e : ℤ) - 150) := by
      rw [← zpow_natCast, ← zpow_add₀ (by norm_num : (2 : ℚ) ≠ 0)]
      congr 1; push_cast; ring
    rw [h4]
    norm_num
  · rw [mag_norm e _ he (by omega)]

/-- Rounding of the significand is rounding to significant bits. -/
theorem rnd_isRound (ml M : Nat) (hml : ml ≤ 22) (h1 : 2 ^ 23 ≤ M) (h2 : M < 2 ^ 24) (q : ℤ) :
    IsRound (ml + 1) ((M : ℚ) * 2 ^ q) ((rnd (23 - ml) M : ℚ) * 2 ^ q) := by
  have hk : 0 < 23 - ml := by omega
  have hq : (0 : ℚ) < 2 ^ q := by positivity
  obtain ⟨n1, n2⟩ := rnd_near (23 - ml) M hk
  obtain ⟨R, hR⟩ := rnd_dvd (23 - ml) M
  have hd24 : 2 ^ (23 - ml) ∣ 2 ^ 24 := Nat.pow_dvd_pow 2 (by omega)
  have hd23 : 2 ^ (23 - ml) ∣ 2 ^ 23 := Nat.pow_dvd_pow 2 (by omega)
  have hle := rnd_le _ M _ hk hd24 h2.le
  have hge : 2 ^ 23 ≤ rnd (23 - ml) M := by
    have := rnd_mono (23 - ml) h1
    rwa [rnd_fix _ _ hk hd23] at this
  have hk2 : 2 ^ (23 - ml) = 2 * 2 ^ (23 - ml - 1) := by rw [← pow_succ']; congr 1; omega
  set r := rnd (23 - ml) M with hr
  set u := 2 ^ (23 - ml - 1) with hu
  have hu0 : 0 < u := by positivity
  -- distances in units of `2^q`
  have dist : ∀ y : ℚ, |y * 2 ^ q - (M : ℚ) * 2 ^ q| = |y - M| * 2 ^ q := by
    intro y
    rw [← sub_mul, abs_mul, abs_of_pos hq]
  have near : |(r : ℚ) - M| ≤ u := by
    rw [abs_le]
    constructor
    · have : (M : ℚ) < r + u := by exact_mod_cast n2
      linarith
    · have : (r : ℚ) ≤ M + u := by exact_mod_cast n1
      linarith
  -- any multiple of `2 u`
  have mult : ∀ j : ℕ, |(r : ℚ) - M| ≤ |((j * (2 * u) : ℕ) : ℚ) - M| ∧ (|(r : ℚ) - M| = |((j * (2 * u) : ℕ) : ℚ) - M| → j * (2 * u) ≤ r) := by
    intro j
    rw [hk2] at hR
    have hcmp : r = j * (2 * u) ∨ r + 2 * u ≤ j * (2 * u) ∨ j * (2 * u) + 2 * u ≤ r := by
      rcases lt_trichotomy R j with h | h | h
      · right; left
        rw [hR]
        calc 2 * u * R + 2 * u = (R + 1) * (2 * u) := by ring
          _ ≤ j * (2 * u) := Nat.mul_le_mul_right _ h
      · left; rw [hR, h]; ring
      · right; right
        rw [hR]
        calc j * (2 * u) + 2 * u = (j + 1) * (2 * u) := by ring
          _ ≤ R * (2 * u) := Nat.mul_le_mul_right _ h
          _ = 2 * u * R := by ring
    rcases hcmp with h | h | h
    · rw [h]; exact ⟨le_rfl, fun _ => le_rfl⟩
    · have h' : (r : ℚ) + 2 * u ≤ ((j * (2 * u) : ℕ) : ℚ) := by exact_mod_cast h
      have n2' : (M : ℚ) < r + u := by exact_mod_cast n2
      have hgt : (u : ℚ) < |((j * (2 * u) : ℕ) : ℚ) - M| := by
        rw [abs_of_pos (by linarith [(by exact_mod_cast hu0 : (0 : ℚ) < u)])]
        linarith
      exact ⟨near.trans hgt.le, fun h'' => absurd h'' (by linarith)⟩
    · have h' : ((j * (2 * u) : ℕ) : ℚ) + 2 * u ≤ r := by exact_mod_cast h
      have n1' : (r : ℚ) ≤ M + u := by exact_mod_cast n1
      have hge' : (u : ℚ) ≤ |((j * (2 * u) : ℕ) : ℚ) - M| := by
        rw [abs_sub_comm]
        refine le_trans ?_ (le_abs_self _)
        linarith
      exact ⟨near.trans hge', fun _ => by omega⟩
  constructor
  · -- few significant bits
    have hpq : (2 : ℚ) ^ (((23 - ml : ℕ) : ℤ) + q) = ((2 ^ (23 - ml) : ℕ) : ℚ) * 2 ^ q := by
      rw [zpow_add₀ (by norm_num : (2 : ℚ) ≠ 0), zpow_natCast]; push_cast; ring
    by_cases h : r = 2 ^ 24
    · refine ⟨1, 24 + q, ?_, ?_⟩
      · rw [abs_one]; exact one_lt_pow₀ (by norm_num) (by omega)
      · rw [h, zpow_add₀ (by norm_num : (2 : ℚ) ≠ 0)]; norm_num
    · refine ⟨R, ((23 - ml : ℕ) : ℤ) + q, ?_, ?_⟩
      · have hlt : r < 2 ^ 24 := by omega
        have e24 : 2 ^ 24 = 2 ^ (23 - ml) * 2 ^ (ml + 1) := by rw [← pow_add]; congr 1; omega
        rw [hR, e24] at hlt
        have := Nat.lt_of_mul_lt_mul_left hlt
        rw [abs_of_nonneg (by positivity)]
        exact_mod_cast this
      · rw [hpq, hR]; push_cast; ring
  · rintro y ⟨n, p, hn, rfl⟩
    -- the number in units of `2^q`
    set z : ℚ := n * 2 ^ p / 2 ^ q with hz
    have hy : (n : ℚ) * 2 ^ p = z * 2 ^ q := (div_mul_cancel₀ _ hq.ne').symm
    rw [hy, dist, dist]
    have hgoal : |(r : ℚ) - M| ≤ |z - M| ∧ (|(r : ℚ) - M| = |z - M| → |z| ≤ r) := by
      by_cases hzl : z < 2 ^ 23
      · -- below the binade: further away than its lower end
        obtain ⟨j, hj⟩ := hd23
        have hj2 : j * (2 * u) = 2 ^ 23 := by rw [hj, hk2]; ring
        obtain ⟨m1, m2⟩ := mult j
        rw [hj2] at m1
        have hM : (2 : ℚ) ^ 23 ≤ M := by exact_mod_cast h1
        have hlt : |((2 ^ 23 : ℕ) : ℚ) - M| < |z - M| := by
          push_cast
          rw [abs_of_nonpos (by linarith), abs_of_neg (by linarith)]
          linarith
        exact ⟨m1.trans hlt.le, fun h => absurd h (by linarith)⟩
      · -- otherwise a multiple of the step
        have hz23 : (2 : ℚ) ^ 23 ≤ z := not_lt.1 hzl
        have hzpos : 0 < z := lt_of_lt_of_le (by positivity) hz23
        have hz' : z = n * 2 ^ (p - q) := by
          rw [hz, zpow_sub₀ (by norm_num : (2 : ℚ) ≠ 0), mul_div_assoc]
        have hnpos : 0 < n := by
          have h3 : (0 : ℚ) < n := by
            have hpp : (0 : ℚ) < 2 ^ (p - q) := by positivity
            rw [hz'] at hzpos
            exact (mul_pos_iff_of_pos_right hpp).1 hzpos
          exact_mod_cast h3
        have hexp : ((23 - ml : ℕ) : ℤ) ≤ p - q := by
          by_contra hlt
          have h3 : p - q ≤ ((23 - ml : ℕ) : ℤ) - 1 := by omega
          have h4 : (2 : ℚ) ^ (p - q) ≤ 2 ^ (((23 - ml : ℕ) : ℤ) - 1) := zpow_le_zpow_right₀ (by norm_num) h3
          have h5 : (n : ℚ) < 2 ^ (ml + 1) := by
            have : n < 2 ^ (ml + 1) := (le_abs_self n).trans_lt hn
            exact_mod_cast this
          have h6 : z < 2 ^ (ml + 1) * 2 ^ (((23 - ml : ℕ) : ℤ) - 1) := by
            rw [hz']
            calc (n : ℚ) * 2 ^ (p - q) ≤ n * 2 ^ (((23 - ml : ℕ) : ℤ) - 1) :=
                  mul_le_mul_of_nonneg_left h4 (by exact_mod_cast hnpos.le)
              _ < _ := mul_lt_mul_of_pos_right h5 (by positivity)
          have h7 : (2 : ℚ) ^ (ml + 1) * 2 ^ (((23 - ml : ℕ) : ℤ) - 1) = 2 ^ 23 := by
            rw [← zpow_natCast, ← zpow_add₀ (by norm_num : (2 : ℚ) ≠ 0)]
            have : ((ml + 1 : ℕ) : ℤ) + (((23 - ml : ℕ) : ℤ) - 1) = 23 := by omega
            rw [this]; norm_num
          linarith
        obtain ⟨t, ht⟩ := Int.le.dest hexp
        obtain ⟨N, rfl⟩ := Int.eq_ofNat_of_zero_le hnpos.le
        have hzn : z = ((N * 2 ^ t * (2 * u) : ℕ) : ℚ) := by
          rw [hz', ← ht, zpow_add₀ (by norm_num : (2 : ℚ) ≠ 0), zpow_natCast, zpow_natCast, ← hk2]
          push_cast; ring
        obtain ⟨m1, m2⟩ := mult (N * 2 ^ t)
        rw [← hzn] at m1 m2
        refine ⟨m1, fun h => ?_⟩
        rw [abs_of_pos hzpos, hzn]
        exact_mod_cast m2 h
    refine ⟨mul_le_mul_of_nonneg_right hgoal.1 hq.le, fun h => ?_⟩
    have h' := mul_right_cancel₀ hq.ne' h
    rw [abs_mul, abs_mul, abs_of_pos hq]
    refine mul_le_mul_of_nonneg_right ?_ hq.le
    rw [Nat.abs_cast]
    exact hgoal.2 h'

theorem isRound_neg {p : Nat} {v r : ℚ} (h : IsRound p v r) : IsRound p (-v) (-r) := by
  obtain ⟨⟨n, q, h1, h2⟩, h3⟩ := h
  refine ⟨⟨-n, q, by rwa [abs_neg], by rw [h2]; push_cast; ring⟩, ?_⟩
  rintro y ⟨n', q', h1', h2'⟩
  obtain ⟨h4, h5⟩ := h3 (-y) ⟨-n', q', by rwa [abs_neg], by rw [h2']; push_cast; ring⟩
  have e1 : |-r - -v| = |r - v| := by rw [← abs_neg]; congr 1; ring
  have e2 : |y - -v| = |-y - v| := by rw [← abs_neg]; congr 1; ring
  rw [e1, e2, abs_neg r, ← abs_neg y]
  exact ⟨h4, h5⟩

end Aihw.FloatPrec
