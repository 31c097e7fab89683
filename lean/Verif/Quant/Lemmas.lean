import Verif.Quant.Model
import Verif.Quant.Spec
import Mathlib.Data.List.GetD

namespace Aihw.Quant

theorem le_clampZ {lo hi : ℤ} (h : lo ≤ hi) (x : ℤ) : lo ≤ clampZ lo hi x := by
  unfold clampZ; omega
theorem clampZ_le (lo hi x : ℤ) : clampZ lo hi x ≤ hi := by unfold clampZ; omega
theorem clampZ_of_mem {lo hi x : ℤ} (h1 : lo ≤ x) (h2 : x ≤ hi) : clampZ lo hi x = x := by
  unfold clampZ; omega
theorem clampZ_mono {lo hi x y : ℤ} (h : x ≤ y) : clampZ lo hi x ≤ clampZ lo hi y := by
  unfold clampZ; omega

/-- Rounding then clamping (with an integer shift) gives the nearest integer of the interval. -/
theorem clampZ_nearest {lo hi zp : ℤ} (_h : lo ≤ hi) (t : ℚ) {k : ℤ} (h1 : lo ≤ k + zp) (h2 : k + zp ≤ hi) :
    |t - ((clampZ lo hi (roundHE t + zp) - zp : ℤ) : ℚ)| ≤ |t - (k : ℚ)| := by
  have hr := abs_le.1 (abs_sub_roundHE t)
  set r := roundHE t with hrdef
  rcases lt_trichotomy (r + zp) lo with hlt | hge
  · -- clamp up to lo
    have e : clampZ lo hi (r + zp) = lo := by unfold clampZ; omega
    rw [e]
    have a : (r : ℚ) + 1 ≤ ((lo - zp : ℤ) : ℚ) := by
      have : r + 1 ≤ lo - zp := by omega
      exact_mod_cast this
    have b : ((lo - zp : ℤ) : ℚ) ≤ (k : ℚ) := by
      have : lo - zp ≤ k := by omega
      exact_mod_cast this
    rw [abs_of_nonpos (by linarith [hr.1, hr.2]), abs_of_nonpos (by linarith [hr.1, hr.2])]
    linarith
  · by_cases hhi : hi < r + zp
    · have e : clampZ lo hi (r + zp) = hi := by unfold clampZ; omega
      rw [e]
      have a : ((hi - zp : ℤ) : ℚ) + 1 ≤ (r : ℚ) := by
        have : hi - zp + 1 ≤ r := by omega
        exact_mod_cast this
      have b : (k : ℚ) ≤ ((hi - zp : ℤ) : ℚ) := by
        have : k ≤ hi - zp := by omega
        exact_mod_cast this
      rw [abs_of_nonneg (by linarith [hr.1, hr.2]), abs_of_nonneg (by linarith [hr.1, hr.2])]
      linarith
    · have e : clampZ lo hi (r + zp) = r + zp := by
        unfold clampZ; rcases hge with h | h <;> omega
      rw [e]
      have e2 : r + zp - zp = r := by omega
      rw [e2]
      by_cases hk : k = r
      · rw [hk]
      · have hd : (1 : ℚ) ≤ |(k : ℚ) - r| := by
          have : (1 : ℤ) ≤ |k - r| := Int.one_le_abs (by omega)
          have h' : ((1 : ℤ) : ℚ) ≤ ((|k - r| : ℤ) : ℚ) := by exact_mod_cast this
          simpa using h'
        have h3 := abs_le.2 hr
        have h4 : |(k : ℚ) - r| ≤ |t - k| + |t - r| := by
          have := abs_sub_le (k : ℚ) t r
          rw [abs_sub_comm (k : ℚ) t] at this
          exact this
        linarith

/-- Inside the (half-step widened) interval the error is at most one half. -/
theorem clampZ_half {lo hi zp : ℤ} (h : lo ≤ hi) (t : ℚ)
    (h1 : (lo : ℚ) - zp - 1 / 2 ≤ t) (h2 : t ≤ (hi : ℚ) - zp + 1 / 2) :
    |t - ((clampZ lo hi (roundHE t + zp) - zp : ℤ) : ℚ)| ≤ 1 / 2 := by
  have hr := abs_le.1 (abs_sub_roundHE t)
  rcases lt_or_ge (roundHE t + zp) lo with hlt | hge
  · refine le_trans (clampZ_nearest h t (k := lo - zp) (by omega) (by omega)) ?_
    have a : (roundHE t : ℚ) + 1 ≤ ((lo - zp : ℤ) : ℚ) := by
      have : roundHE t + 1 ≤ lo - zp := by omega
      exact_mod_cast this
    rw [abs_le]; push_cast at a ⊢; constructor <;> linarith [hr.1, hr.2]
  · rcases lt_or_ge hi (roundHE t + zp) with hlt | hle
    · refine le_trans (clampZ_nearest h t (k := hi - zp) (by omega) (by omega)) ?_
      have a : ((hi - zp : ℤ) : ℚ) + 1 ≤ (roundHE t : ℚ) := by
        have : hi - zp + 1 ≤ roundHE t := by omega
        exact_mod_cast this
      rw [abs_le]; push_cast at a ⊢; constructor <;> linarith [hr.1, hr.2]
    · rw [clampZ_of_mem hge hle]
      have e : roundHE t + zp - zp = roundHE t := by omega
      rw [e]; exact abs_sub_roundHE t

/-- The element-wise quantisation, for any positive scale and any zero point of the grid. -/
theorem good_core {s : ℚ} (hs : 0 < s) {lo hi zp : ℤ} (h1 : lo ≤ zp) (h2 : zp ≤ hi)
    {a b : ℚ} (ha : (lo : ℚ) - zp - 1 / 2 ≤ a / s) (hb : b / s ≤ (hi : ℚ) - zp + 1 / 2) :
    Spec.GoodQuantizer s (lo - zp) (hi - zp) a b
      (fun x => s * ((clampZ lo hi (roundHE (x / s) + zp) - zp : ℤ) : ℚ)) := by
  have hlh : lo ≤ hi := by omega
  refine ⟨hs, by omega, by omega, ?_, ?_, ?_, ?_, ?_⟩
  · intro x
    refine ⟨⟨_, ?_, ?_, rfl⟩, ?_⟩
    · have := le_clampZ hlh (roundHE (x / s) + zp); omega
    · have := clampZ_le lo hi (roundHE (x / s) + zp); omega
    · rintro z ⟨k, hk1, hk2, rfl⟩
      have := clampZ_nearest hlh (x / s) (k := k) (zp := zp) (by omega) (by omega)
      have e : ∀ y : ℚ, |x - s * y| = s * |x / s - y| := by
        intro y
        have : x - s * y = s * (x / s - y) := by field_simp
        rw [this, abs_mul, abs_of_pos hs]
      simp only [e]
      exact mul_le_mul_of_nonneg_left this hs.le
  · intro x y hxy
    refine mul_le_mul_of_nonneg_left ?_ hs.le
    have : x / s ≤ y / s := div_le_div_of_nonneg_right hxy hs.le
    have := clampZ_mono (lo := lo) (hi := hi) (add_le_add_left (roundHE_mono this) zp)
    exact_mod_cast sub_le_sub_right this zp
  · intro x
    simp only
    have e : s * ((clampZ lo hi (roundHE (x / s) + zp) - zp : ℤ) : ℚ) / s
        = ((clampZ lo hi (roundHE (x / s) + zp) - zp : ℤ) : ℚ) := by field_simp
    rw [e, roundHE_intCast]
    congr 2
    rw [sub_add_cancel, clampZ_of_mem (le_clampZ hlh _) (clampZ_le _ _ _)]
  · have e : roundHE ((0 : ℚ) / s) = 0 := by
      rw [zero_div]; exact_mod_cast roundHE_intCast 0
    simp only [e, zero_add]
    rw [clampZ_of_mem h1 h2]; simp
  · intro x hx1 hx2
    have e : ∀ y : ℚ, |x - s * y| = s * |x / s - y| := by
      intro y
      have : x - s * y = s * (x / s - y) := by field_simp
      rw [this, abs_mul, abs_of_pos hs]
    simp only [e]
    have := clampZ_half hlh (zp := zp) (x / s)
      (ha.trans (div_le_div_of_nonneg_right hx1 hs.le))
      ((div_le_div_of_nonneg_right hx2 hs.le).trans hb)
    calc s * |x / s - _| ≤ s * (1 / 2) := mul_le_mul_of_nonneg_left this hs.le
      _ = s / 2 := by ring

theorem two_pow_pos (n : Nat) : (1 : ℤ) ≤ 2 ^ n := by
  have : (0 : ℤ) < 2 ^ n := by positivity
  omega

/-- One channel of the asymmetric quantizer. -/
theorem good_asym {q : Quantizer} (hq : q.sym = false) (he : 0 < q.eps) (b sg : Bool) {r : ℚ × ℚ} {p : Par}
    (hp : parOf q b r = .ok p) :
    let s := scale q p
    let zp := zeroPoint q p
    1 ≤ q.nBits ∧
    s = (if q.logDomain then (max r.2 q.eps - min r.1 0) / (2 ^ q.nBits - 1)
         else max ((max r.2 q.eps - min r.1 0) / (2 ^ q.nBits - 1)) q.eps) ∧
    s * (-zp : ℤ) ≤ min r.1 0 + s / 2 ∧ max r.2 q.eps - s / 2 ≤ s * ((2 ^ q.nBits - 1 - zp : ℤ) : ℚ) ∧
    Spec.GoodQuantizer s (-zp) (2 ^ q.nBits - 1 - zp) r.1 r.2 (quant1 q sg p) := by
  intro s zp
  set M : ℤ := 2 ^ q.nBits - 1 with hM
  simp only [parOf, hq, intMax, tensorize] at hp
  simp only [Bool.false_eq_true, if_false] at hp
  by_cases hM0 : M = 0
  · rw [if_pos (by rw [← hM]; exact hM0)] at hp; simp at hp
  rw [if_neg (by rw [← hM]; exact hM0)] at hp
  simp only [Except.ok.injEq] at hp
  have hMpos : 1 ≤ M := by have := two_pow_pos q.nBits; omega
  have hn : 1 ≤ q.nBits := by
    rcases Nat.eq_zero_or_pos q.nBits with h | h
    · rw [h] at hM; simp at hM; omega
    · exact h
  set lo := min r.1 0 with hlo
  set hi := max r.2 q.eps with hhi
  have hlo0 : lo ≤ 0 := min_le_right _ _
  have hhi0 : 0 < hi := lt_of_lt_of_le he (le_max_right _ _)
  have hMq : (0 : ℚ) < (M : ℚ) := by exact_mod_cast hMpos
  have hMcast : ((2 : ℚ) ^ q.nBits - 1) = (M : ℚ) := by rw [hM]; push_cast; ring
  have hMcast' : (((2 ^ q.nBits - 1 : ℤ)) : ℚ) = (M : ℚ) := rfl
  set d := (hi - lo) / (M : ℚ) with hd
  have hdpos : 0 < d := by rw [hd]; exact div_pos (by linarith) hMq
  have hpd : p.delta = d := by rw [← hp]
  have hpz : p.zeroFloat = -lo / d := by rw [← hp]
  have hzf0 : 0 ≤ -lo / d := div_nonneg (by linarith) hdpos.le
  have hzfM : -lo / d ≤ M := by
    rw [div_le_iff₀ hdpos, hd]
    have : (M : ℚ) * ((hi - lo) / M) = hi - lo := by field_simp
    rw [this]; linarith
  have hz0 : 0 ≤ roundHE (-lo / d) := by
    have := roundHE_mono hzf0
    rwa [show (0 : ℚ) = ((0 : ℤ) : ℚ) by norm_num, roundHE_intCast] at this
  have hzM : roundHE (-lo / d) ≤ M := by
    have := roundHE_mono hzfM
    rwa [roundHE_intCast] at this
  have hzp : zp = roundHE (-lo / d) := by
    show zeroPoint q p = _
    simp only [zeroPoint, hq, Bool.false_eq_true, if_false, hpz]
    exact clampZ_of_mem hz0 hzM
  have hsd : d ≤ s := by
    show d ≤ scale q p
    simp only [scale, hpd]; split_ifs
    · exact le_refl _
    · exact le_max_left _ _
  have hs : 0 < s := lt_of_lt_of_le hdpos hsd
  have hround := abs_le.1 (abs_sub_roundHE (-lo / d))
  rw [← hzp] at hround
  have hlos : -(-lo / d) ≤ lo / s := by
    rw [neg_div, neg_neg]
    rw [div_le_div_iff₀ hdpos hs]
    nlinarith
  have hhis : hi / s ≤ M - (-lo / d) := by
    have h1 : hi / s ≤ hi / d := div_le_div_of_nonneg_left hhi0.le hdpos hsd
    have h2 : hi / d = M - (-lo / d) := by
      rw [hd] at hdpos ⊢
      have hne : hi - lo ≠ 0 := by intro h; rw [h] at hdpos; simp at hdpos
      field_simp; ring
    linarith
  refine ⟨hn, ?_, ?_, ?_, ?_⟩
  · show scale q p = _
    simp only [scale, hpd, hMcast]; rw [hd]
  · push_cast
    have : lo = s * (lo / s) := by field_simp
    rw [this]
    nlinarith [hround.1, hround.2]
  · have : hi = s * (hi / s) := by field_simp
    rw [this]; push_cast
    nlinarith [hround.1, hround.2]
  · have hr1 : lo ≤ r.1 := min_le_left _ _
    have hr2 : r.2 ≤ hi := le_max_left _ _
    have key := good_core (s := s) hs (lo := 0) (hi := M) (zp := zp) (by omega) (by omega)
      (a := r.1) (b := r.2)
      (by push_cast
          have := div_le_div_of_nonneg_right hr1 hs.le
          linarith [hround.1, hround.2])
      (by have := div_le_div_of_nonneg_right hr2 hs.le
          linarith [hround.1, hround.2])
    have e : (fun x => s * ((clampZ 0 M (roundHE (x / s) + zp) - zp : ℤ) : ℚ)) = quant1 q sg p := by
      funext x
      simp only [quant1, toInt1, intMin, intMax, hq, Bool.false_eq_true, if_false]
      rfl
    rw [e] at key
    simpa using key

/-- One channel of the symmetric quantizer. -/
theorem good_sym {q : Quantizer} (hq : q.sym = true) (he : 0 < q.eps) (sg : Bool)
    (hn : sg = true → 1 ≤ q.nBits) {r : ℚ × ℚ}
    (hsg : sg = false → 0 ≤ r.1) {p : Par} (hp : parOf q sg r = .ok p) :
    let s := scale q p
    let M : ℤ := 2 ^ (q.nBits - (if sg then 1 else 0)) - 1
    1 ≤ M ∧
    s = (if q.logDomain then max |min r.1 0| (max r.2 q.eps) / M
         else max (max |min r.1 0| (max r.2 q.eps) / M) q.eps) ∧
    Spec.GoodQuantizer s (if sg then -2 ^ (q.nBits - 1) else 0) M r.1 r.2 (quant1 q sg p) := by
  intro s M
  simp only [parOf, hq, tensorize] at hp
  have hMdef : intMax q sg = M := by simp only [intMax, hq, if_true]; rfl
  rw [hMdef] at hp
  by_cases hM0 : M = 0
  · rw [if_pos hM0] at hp; simp at hp
  rw [if_neg hM0] at hp
  simp only [if_true, Except.ok.injEq] at hp
  have hMpos : 1 ≤ M := by have := two_pow_pos (q.nBits - (if sg then 1 else 0)); omega
  have hMq : (0 : ℚ) < (M : ℚ) := by exact_mod_cast hMpos
  set lo := min r.1 0 with hlo
  set hi := max r.2 q.eps with hhi
  have hlo0 : lo ≤ 0 := min_le_right _ _
  have hhi0 : 0 < hi := lt_of_lt_of_le he (le_max_right _ _)
  set A := max |lo| hi with hA
  have hA0 : 0 < A := lt_of_lt_of_le hhi0 (le_max_right _ _)
  have hpd : p.delta = A / M := by rw [← hp]
  have hdpos : 0 < A / (M : ℚ) := div_pos hA0 hMq
  have hsd : A / (M : ℚ) ≤ s := by
    show _ ≤ scale q p
    simp only [scale, hpd]; split_ifs
    · exact le_refl _
    · exact le_max_left _ _
  have hs : 0 < s := lt_of_lt_of_le hdpos hsd
  have hAs : A / s ≤ M := by
    have h1 : A / s ≤ A / (A / M) := div_le_div_of_nonneg_left hA0.le hdpos hsd
    have h2 : A / (A / (M : ℚ)) = M := by field_simp
    linarith
  have hr1 : -A ≤ r.1 := by
    have : |lo| ≤ A := le_max_left _ _
    have h3 : -|lo| ≤ lo := neg_abs_le _
    have h4 : lo ≤ r.1 := min_le_left _ _
    linarith
  have hr2 : r.2 ≤ A := le_trans (le_max_left _ _) (le_max_right _ _)
  refine ⟨hMpos, ?_, ?_⟩
  · show scale q p = _
    simp only [scale, hpd]
  · have up : r.2 / s ≤ ((M : ℤ) : ℚ) - ((0 : ℤ) : ℚ) + 1 / 2 := by
      have := div_le_div_of_nonneg_right hr2 hs.le
      push_cast; linarith
    have e : (fun x => s * ((clampZ (intMin q sg) M (roundHE (x / s) + 0) - 0 : ℤ) : ℚ))
        = quant1 q sg p := by
      funext x
      simp only [quant1, toInt1, zeroPoint, hq, if_true, hMdef]
      rfl
    cases sg with
    | false =>
      have key := good_core (s := s) hs (lo := 0) (hi := M) (zp := 0) (by omega) (by omega)
        (a := r.1) (b := r.2)
        (by have := div_nonneg (hsg rfl) hs.le
            push_cast; linarith) up
      have e0 : intMin q false = 0 := by simp [intMin, hq]
      rw [e0] at e
      rw [e] at key
      simpa using key
    | true =>
      have hn1 := hn rfl
      have hpow : (2 : ℤ) ^ (q.nBits - 1) = M + 1 := by
        simp only [M, if_true]; ring
      have key := good_core (s := s) hs (lo := -2 ^ (q.nBits - 1)) (hi := M) (zp := 0)
        (by rw [hpow]; omega) (by omega) (a := r.1) (b := r.2)
        (by have h1 := div_le_div_of_nonneg_right hr1 hs.le
            rw [neg_div] at h1
            rw [hpow]; push_cast; linarith) up
      have e0 : intMin q true = -2 ^ (q.nBits - 1) := by simp [intMin, hq]
      rw [e0] at e
      rw [e] at key
      simpa using key

end Aihw.Quant
