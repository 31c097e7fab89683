import Verif.GpuPulse.Props2

/-!
# C35 on the GPU: implicit pulses
-/
namespace Aihw.GpuPulse

open Aihw.Pulsed

theorem rint_neg (x : ℝ) : rint (-x) = -rint x := by
  by_cases hx : (⌊x⌋ : ℝ) = x
  · rw [← hx]
    have : (-(⌊x⌋ : ℝ)) = ((-⌊x⌋ : ℤ) : ℝ) := by push_cast; rfl
    rw [this, rint_intCast, rint_intCast]
  · have h1 := Int.floor_le x
    have h2 := Int.lt_floor_add_one x
    have h3 : (⌊x⌋ : ℝ) < x := lt_of_le_of_ne h1 hx
    have hf : ⌊-x⌋ = -⌊x⌋ - 1 := by
      rw [Int.floor_eq_iff]; push_cast; constructor <;> linarith
    unfold rint
    rw [hf]
    push_cast
    rcases lt_trichotomy (x - ⌊x⌋) (1 / 2) with h | h | h
    · rw [if_pos h, if_neg (by linarith), if_pos (by linarith)]; omega
    · rw [if_neg (by linarith), if_neg (by linarith), if_neg (show ¬ (x - ⌊x⌋ < 1 / 2) by linarith),
        if_neg (show ¬ (1 / 2 < x - ⌊x⌋) by linarith)]
      split_ifs <;> omega
    · rw [if_pos (by linarith), if_neg (by linarith), if_pos h]; omega

/-- The resolutions for which one is a multiple of the resolution. -/
def FullScale (res : ℝ) : Prop := res ≤ 0 ∨ ∃ n : ℕ, 0 < n ∧ res = 1 / n

theorem disc_clip {res : ℝ} (h : FullScale res) (u : ℝ) {a : ℝ} (ha : 0 ≤ a) :
    discretized res false (min a 1) 0 = max (min (discretized res false a u) 1) 0 := by
  rcases h with h | ⟨n, hn, rfl⟩
  · rw [discretized, discretized, if_pos h, if_pos h, max_eq_left (le_min ha zero_le_one)]
  · have hn0 : (0 : ℝ) < n := by exact_mod_cast hn
    have hr : ¬ (1 / (n : ℝ)) ≤ 0 := not_le.2 (by positivity)
    simp only [discretized, if_neg hr, Bool.false_eq_true, if_false]
    have e : ∀ y : ℝ, y / (1 / (n : ℝ)) = y * n := by intro y; field_simp
    rw [e, e]
    have hz : 0 ≤ rint (a * n) := rint_nonneg (by positivity)
    have hz' : (0 : ℝ) ≤ rint (a * n) := by exact_mod_cast hz
    rcases le_total a 1 with h1 | h1
    · rw [min_eq_left h1]
      have : rint (a * n) ≤ (n : ℤ) := rint_le (by push_cast; nlinarith)
      have h2 : ((rint (a * n) : ℤ) : ℝ) ≤ n := by exact_mod_cast this
      rw [min_eq_left (by rw [mul_one_div, div_le_one hn0]; exact h2), max_eq_left (by positivity)]
    · rw [min_eq_right h1, one_mul]
      have e2 : rint ((n : ℝ)) = (n : ℤ) := by
        have := rint_intCast (K := ℝ) (n : ℤ); push_cast at this; exact this
      have : (n : ℤ) ≤ rint (a * n) := le_rint (by push_cast; nlinarith)
      have h2 : (n : ℝ) ≤ ((rint (a * n) : ℤ) : ℝ) := by exact_mod_cast this
      rw [e2, min_eq_right (by rw [mul_one_div, le_div_iff₀ hn0]; linarith)]
      push_cast
      rw [max_eq_left zero_le_one]; field_simp

theorem disc_neg (res v : ℝ) : discretized res false (-v) 0 = -discretized res false v 0 := by
  unfold discretized
  split_ifs with h
  · rfl
  · simp at *
  · rw [neg_div, rint_neg]; push_cast; ring

/-- The value of one entry is the CPU's. -/
theorem implicit_value (v : Input) {m b j : ℕ} (hb : b < m) (hj : j < v.size) (factor : ℕ → ℝ) (hf : 0 ≤ factor b)
    {res : ℝ} (h : FullScale res) (u : ℝ) :
    implicitAt v m factor res (v.pos m b j) = detValue (factor b) res false false (v.sample m b j) u := by
  rw [implicitAt, batchIdx_pos v hb hj, detValue]
  simp only [Bool.false_eq_true, if_false]
  show discretized res false (min (max (v.sample m b j * factor b) (-1)) 1) 0 = _
  rcases le_or_gt 0 (v.sample m b j) with h0 | h0
  · rw [if_pos h0, abs_of_nonneg h0, ← disc_clip h u (mul_nonneg h0 hf),
      max_eq_left ((by norm_num : (-1 : ℝ) ≤ 0).trans (mul_nonneg h0 hf))]
  · rw [if_neg (not_le.2 h0), abs_of_neg h0, ← disc_clip h u (mul_nonneg (by linarith) hf), ← disc_neg]
    congr 1
    have h2 : v.sample m b j * factor b ≤ 0 := mul_nonpos_of_nonpos_of_nonneg h0.le hf
    rw [min_eq_left ((max_le h2 (by norm_num)).trans zero_le_one), neg_mul]
    rcases le_total (v.sample m b j * factor b) (-1) with h3 | h3
    · rw [max_eq_right h3, min_eq_right (by linarith)]
    · rw [max_eq_left h3, min_eq_left (by linarith), neg_neg]

/-- **C35 (GPU: implicit pulses).** For non-negative factors, a positive number of slots and resolutions of which one is a
multiple (or none): the number of coincidences of every cell of every sample, and their sign if there are any, are those of
the CPU for this sample with the same factors and length. -/
theorem C35_gpu_implicit (x d : Input) (m b i j : ℕ) (hb : b < m) (hi : i < d.size) (hj : j < x.size) (k : ℕ)
    (hk : 0 < k) (xf df : ℕ → ℝ) (hx : 0 ≤ xf b) (hd : 0 ≤ df b) (resX resD : ℝ) (hrx : FullScale resX)
    (hrd : FullScale resD) (ux ud : ℕ → ℝ) :
    let n := implicitCount k (implicitAt x m xf resX (x.pos m b j)) (implicitAt d m df resD (d.pos m b i))
    let c := coinc .detImplicit ⟨k, df b, xf b, resX, resD, false⟩ false (x.sample m b) (d.sample m b) ux ud i j
    n.1 = c.natAbs ∧ (c ≠ 0 → (n.2 = true ↔ c < 0)) := by
  intro n c
  have ex := implicit_value x hb hj xf hx hrx (ux j)
  have ed := implicit_value d hb hi df hd hrd (ud i)
  have hk0 : (0 : ℝ) < k := by exact_mod_cast hk
  simp only [n, c, coinc]
  rw [ex, ed, implicitCount, coincDet]
  generalize detValue (xf b) resX false false (x.sample m b j) (ux j) = X
  generalize detValue (df b) resD false false (d.sample m b i) (ud i) = D
  have e : D * (X * ((k : ℤ) : ℝ)) = D * k * X := by push_cast; ring
  rw [e]
  push_cast
  have hXk : X * k = 0 ↔ X = 0 := by rw [mul_eq_zero]; simp [hk0.ne']
  have hXn : X * k < 0 ↔ X < 0 := by constructor <;> intro h <;> nlinarith
  constructor
  · by_cases hD : D = 0
    · simp [hD]
    · by_cases hX : X = 0
      · simp [hX, hD, rint_zero]
      · rw [if_neg (by rw [hXk]; tauto), if_neg hD]
  · intro hc
    by_cases hD : D = 0
    · rw [if_pos hD] at hc; exact absurd rfl hc
    rw [if_neg hD] at hc ⊢
    have h1 : rint (D * k * X) < 0 ↔ D * X < 0 := by
      constructor
      · intro h
        by_contra hn
        have : 0 ≤ rint (D * k * X) := rint_nonneg (by nlinarith [not_lt.1 hn])
        omega
      · intro h
        have : rint (D * k * X) ≤ 0 := rint_nonpos (by nlinarith)
        omega
    have hX : X ≠ 0 := by rintro rfl; exact hc (by rw [mul_zero, rint_zero])
    rw [h1, decide_eq_true_eq, hXn]
    rcases lt_or_gt_of_ne hX with a | a <;> rcases lt_or_gt_of_ne hD with b' | b'
    · simp [a, b', (mul_pos_of_neg_of_neg b' a).le, not_lt.2]
    · simp [a, not_lt.2 b'.le, mul_neg_of_pos_of_neg b' a]
    · simp [not_lt.2 a.le, b', mul_neg_of_neg_of_pos b' a]
    · simp [not_lt.2 a.le, not_lt.2 b'.le, (mul_pos b' a).le, not_lt.2]

end Aihw.GpuPulse
