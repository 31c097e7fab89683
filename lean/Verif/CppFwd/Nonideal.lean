import Verif.CppFwd.Props3
import Verif.Pulsed.MixedPrecLemmas

/-!
# C63: converters and non-idealities of the C++ passes
-/
open scoped BigOperators

namespace Aihw.CppFwd

open Aihw.Pulsed (rint rint_dist)

variable {K : Type} [Field K] [LinearOrder K] [IsStrictOrderedRing K] [FloorRing K]

set_option linter.unusedSectionVars false

/-! ## Specification -/

/-- `q` is `z` rounded to multiples of `step`, by at most half a step, or one step with stochastic
rounding; no rounding for `step ≤ 0`. -/
def Rounds (step : K) (sto : Bool) (z q : K) : Prop :=
  (step ≤ 0 → q = z) ∧
  (0 < step → (∃ k : ℤ, q = k * step) ∧ |q - z| ≤ if sto then step else step / 2)

/-- `q` is `z` limited to `[-b, b]`. -/
def Clips (b : Option K) (z q : K) : Prop := (b = none → q = z) ∧ ∀ c, b = some c → q = max (-c) (min z c)

/-- Negative values are scaled by `1 - a`. -/
def Scales (a z q : K) : Prop := (z < 0 → q = z * (1 - a)) ∧ (0 ≤ z → q = z)

/-! ## Converters -/

theorem rounds_disc (sto : Bool) (res v : K) {u : K} (h0 : 0 ≤ u) (h1 : u ≤ 1) :
    Rounds res sto v (disc sto res u v) := by
  unfold disc
  constructor
  · intro h; rw [if_pos h]
  · intro h
    rw [if_neg (not_le.2 h)]
    cases sto with
    | true =>
      simp only [if_true]
      refine ⟨⟨_, rfl⟩, ?_⟩
      have hd := rint_dist (v / res + (u - 1 / 2))
      have e : ((rint (v / res + (u - 1 / 2)) : ℤ) : K) * res - v =
          (((rint (v / res + (u - 1 / 2)) : ℤ) : K) - v / res) * res := by field_simp
      rw [e, abs_mul, abs_of_pos h]
      have h2 : |((rint (v / res + (u - 1 / 2)) : ℤ) : K) - v / res| ≤ 1 := by
        rw [abs_le] at hd ⊢
        constructor <;> linarith [hd.1, hd.2]
      calc _ ≤ 1 * res := mul_le_mul_of_nonneg_right h2 h.le
        _ = res := one_mul _
    | false =>
      simp only [Bool.false_eq_true, if_false]
      refine ⟨⟨_, rfl⟩, ?_⟩
      have hd := rint_dist (v / res)
      have e : ((rint (v / res) : ℤ) : K) * res - v =
          -((v / res - ((rint (v / res) : ℤ) : K)) * res) := by field_simp; ring
      rw [e, abs_neg, abs_mul, abs_of_pos h]
      calc _ ≤ 1 / 2 * res := mul_le_mul_of_nonneg_right hd h.le
        _ = res / 2 := by ring

theorem clips_clipB {b : Option K} (hb : ∀ c, b = some c → 0 ≤ c) (v : K) : Clips b v (clipB b v) := by
  constructor
  · rintro rfl; rfl
  · rintro c rfl; exact clipB_eq_clamp (hb c rfl) v

theorem scales_asymm (a v : K) : Scales a v (asymm a v) := by
  unfold asymm
  exact ⟨fun h => by rw [if_pos h], fun h => by rw [if_neg (not_lt.2 h)]⟩

/-- **C63 (input stage).**  Every input is multiplied by the scale, rounded, clipped, gets noise, and
negative values are scaled by `1 - inp_asymmetry`: in every mode, although the documentation restricts
the asymmetry to the modes with separate passes. -/
theorem C63_input_stage (io : IO K) (hb : ∀ c, io.inpBound = some c → 0 ≤ c) (scale : K) {u g v : K}
    (h0 : 0 ≤ u) (h1 : u ≤ 1) :
    ∃ r c, Rounds io.inpRes io.inpSto (v * scale) r ∧ Clips io.inpBound r c ∧
      Scales io.inpAsym (c + max io.inpNoise 0 * g) (io.prepare scale true u g v) := by
  refine ⟨_, _, rounds_disc io.inpSto io.inpRes (v * scale) h0 h1, clips_clipB hb _, ?_⟩
  unfold IO.prepare
  simp only [if_true]
  have e : (if 0 < io.inpNoise then clipB io.inpBound (disc io.inpSto io.inpRes u (v * scale)) +
      io.inpNoise * g else clipB io.inpBound (disc io.inpSto io.inpRes u (v * scale))) =
      clipB io.inpBound (disc io.inpSto io.inpRes u (v * scale)) + max io.inpNoise 0 * g := by
    by_cases h : 0 < io.inpNoise
    · rw [if_pos h, max_eq_left h.le]
    · rw [if_neg h, max_eq_right (le_of_not_gt h), zero_mul, add_zero]
  rw [e]
  by_cases ha : io.inpAsym = 0
  · rw [if_neg (not_not.2 ha), ha]
    exact ⟨fun _ => by rw [sub_zero, mul_one], fun _ => rfl⟩
  · rw [if_pos ha]
    exact scales_asymm _ _

/-- The saturating nonlinearity of an output line. -/
def saturate (nlf nl z : K) : K := nlf * z / (1 + |nl| * |z|)

/-- **C63 (output stage).**  Every analog sum goes through the nonlinearity (if one is configured), the
asymmetry of negative values (if positive), the noise with the level of its line, and the rounding; then it
is clipped. -/
theorem C63_output_stage (io : IO K) (p : MVPar K) (hb : ∀ c, io.outBound = some c → 0 ≤ c) (m : Nat)
    (dr : Draws K) (b : Bool) (y : Nat → K) (i : Nat) (h0 : 0 ≤ dr.outU b i) (h1 : dr.outU b i ≤ 1) :
    ∃ s a r, (io.hasNLCal = true → s = saturate p.nlf (p.nl i) (y i)) ∧
      (io.hasNLCal = false → s = y i) ∧ Scales (max io.outAsym 0) s a ∧
      Rounds io.outRes io.outSto
        (a + (if 0 < io.outNoiseStd then p.outNoise i else io.outNoise) * dr.outG b i) r ∧
      Clips io.outBound r ((io.finalize p m dr b y).1 i) := by
  refine ⟨if io.hasNLCal then p.nlf * y i / (1 + |p.nl i * y i|) else y i, _, _, ?_, ?_, ?_,
    rounds_disc _ _ _ h0 h1, clips_clipB hb _⟩
  · intro h; rw [h, if_pos rfl, abs_mul]; rfl
  · intro h; rw [h]; rfl
  · by_cases h : 0 < io.outAsym
    · rw [max_eq_left h.le, if_pos h]; exact scales_asymm _ _
    · rw [max_eq_right (le_of_not_gt h), if_neg h]
      exact ⟨fun _ => by rw [sub_zero, mul_one], fun _ => rfl⟩

/-! ## Nonlinearity -/

/-- **C63 (nonlinearity).**  The output nonlinearity is odd, strictly increasing, and never amplifies by
more than its calibration factor. -/
theorem C63_nonlinearity {nlf : K} (hf : 0 < nlf) (nl : K) :
    (∀ z, saturate nlf nl (-z) = -saturate nlf nl z) ∧
    (∀ z z', z < z' → saturate nlf nl z < saturate nlf nl z') ∧
    (∀ z, |saturate nlf nl z| ≤ nlf * |z|) ∧ (∀ z, |saturate nlf nl z| * |nl| ≤ nlf) := by
  have hd : ∀ z : K, 0 < 1 + |nl| * |z| := fun z =>
    add_pos_of_pos_of_nonneg one_pos (mul_nonneg (abs_nonneg _) (abs_nonneg _))
  have hodd : ∀ z, saturate nlf nl (-z) = -saturate nlf nl z := by
    intro z; unfold saturate; rw [abs_neg, mul_neg, neg_div]
  have hpos : ∀ z z', 0 ≤ z → z < z' → saturate nlf nl z < saturate nlf nl z' := by
    intro z z' h0 h
    unfold saturate
    rw [div_lt_div_iff₀ (hd z) (hd z'), abs_of_nonneg h0, abs_of_nonneg (le_of_lt (lt_of_le_of_lt h0 h))]
    have : nlf * z < nlf * z' := mul_lt_mul_of_pos_left h hf
    have e1 : nlf * z * (1 + |nl| * z') = nlf * z + nlf * z * |nl| * z' := by ring
    have e2 : nlf * z' * (1 + |nl| * z) = nlf * z' + nlf * z * |nl| * z' := by ring
    linarith
  have hz0 : saturate nlf nl 0 = 0 := by unfold saturate; simp
  have habs : ∀ z, |saturate nlf nl z| = nlf * |z| / (1 + |nl| * |z|) := by
    intro z; unfold saturate
    rw [abs_div, abs_mul, abs_of_pos hf, abs_of_pos (hd z)]
  refine ⟨hodd, ?_, ?_, ?_⟩
  · intro z z' h
    rcases le_or_gt 0 z with h0 | h0
    · exact hpos z z' h0 h
    · rcases le_or_gt z' 0 with h1 | h1
      · have := hpos (-z') (-z) (by linarith) (by linarith)
        rw [hodd, hodd] at this
        linarith
      · have a1 := hpos 0 (-z) (le_refl _) (by linarith)
        have a2 := hpos 0 z' (le_refl _) h1
        rw [hodd, hz0] at a1
        rw [hz0] at a2
        linarith
  · intro z
    rw [habs, div_le_iff₀ (hd z)]
    have : 0 ≤ nlf * |z| * (|nl| * |z|) := by positivity
    linarith
  · intro z
    rw [habs, div_mul_eq_mul_div, div_le_iff₀ (hd z)]
    have e : nlf * (1 + |nl| * |z|) = nlf + nlf * |z| * |nl| := by ring
    linarith

/-! ## IR drop -/

/-- The relative drop of a position on the line, and the polynomial of the current. -/
def dropPoly (a : K) : K := a * (a * (5 / 100 * a - 2 / 10) + 5 / 10)

theorem dropPoly_nonneg {a : K} (h : 0 ≤ a) : 0 ≤ dropPoly a := by
  unfold dropPoly
  apply mul_nonneg h
  have : 5 / 100 * ((a - 2) * (a - 2)) + 3 / 10 = a * (5 / 100 * a - 2 / 10) + 5 / 10 := by ring
  rw [← this]
  have := mul_self_nonneg (a - 2)
  linarith

/-- **C63 (IR drop).**  With the IR drop as the only non-ideality, an output is the product minus a drop:
`ir_drop` times a polynomial of the total current of the output (which is not negative) times the product
with the inputs weighted by `1 - (1 - j/n)²`.  The first input suffers no drop.  For
non-negative weights and inputs the result lies between 0 and the ideal value as long as `ir_drop` times
the polynomial does not exceed 1. -/
theorem C63_ir_drop (io : IO K) (hi : 0 < io.irDrop) (hvo : io.hasVO = false)
    (hwn : io.wNoiseType = .none) (hg : 0 < io.gRatio) (sq : K → K) (p : MVPar K) {n : Nat} (hn : 0 < n)
    (m : Nat → Nat → K) (x g : Nat → K) (i : Nat) :
    ∃ C, 0 ≤ C ∧ (C = dropPoly ((n : K) / io.gRatio * ∑ j ∈ Finset.range n, |m i j| * |x j|)) ∧
      io.singlePass sq p n m x g i = ∑ j ∈ Finset.range n,
        m i j * x j * (1 - io.irDrop * C * (1 - (1 - (j : K) / n) * (1 - (j : K) / n))) ∧
      io.singlePass sq p n m (fun j => -x j) g i = -io.singlePass sq p n m x g i ∧
      ((∀ j < n, 0 ≤ m i j ∧ 0 ≤ x j) → io.irDrop * C ≤ 1 →
        0 ≤ io.singlePass sq p n m x g i ∧
        io.singlePass sq p n m x g i ≤ ∑ j ∈ Finset.range n, m i j * x j) := by
  have hform : ∀ y : Nat → K, io.singlePass sq p n m y g i = mv n m y i -
      dropPoly ((n : K) / io.gRatio * ∑ j ∈ Finset.range n, |m i j| * |y j|) * (io.irDrop *
        mv n m (fun j => y j * (1 - (1 - (j : K) / (n : K)) * (1 - (j : K) / (n : K)))) i) := by
    intro y
    unfold IO.singlePass
    rw [if_pos hi, hvo]
    simp only [Bool.false_eq_true, if_false]
    unfold IO.weightNoise
    rw [hwn]
    rfl
  have hC : 0 ≤ dropPoly ((n : K) / io.gRatio * ∑ j ∈ Finset.range n, |m i j| * |x j|) := by
    apply dropPoly_nonneg
    exact mul_nonneg (div_nonneg (Nat.cast_nonneg _) hg.le)
      (Finset.sum_nonneg fun j _ => mul_nonneg (abs_nonneg _) (abs_nonneg _))
  have hsum : io.singlePass sq p n m x g i = ∑ j ∈ Finset.range n,
      m i j * x j * (1 - io.irDrop * dropPoly ((n : K) / io.gRatio * ∑ j ∈ Finset.range n, |m i j| * |x j|) *
        (1 - (1 - (j : K) / n) * (1 - (j : K) / n))) := by
    rw [hform]
    generalize dropPoly ((n : K) / io.gRatio * ∑ j ∈ Finset.range n, |m i j| * |x j|) = C
    unfold mv
    rw [Finset.mul_sum, Finset.mul_sum, ← Finset.sum_sub_distrib]
    exact Finset.sum_congr rfl fun j _ => by ring
  refine ⟨_, hC, rfl, hsum, ?_, ?_⟩
  · rw [hform, hform]
    have e1 : ∀ y : Nat → K, mv n m (fun j => -y j) i = -mv n m y i := by
      intro y; unfold mv; rw [← Finset.sum_neg_distrib]
      exact Finset.sum_congr rfl fun j _ => by ring
    have e2 : (fun j : Nat => -x j * (1 - (1 - (j : K) / n) * (1 - (j : K) / n))) =
        fun j : Nat => -(x j * (1 - (1 - (j : K) / n) * (1 - (j : K) / n))) := by
      funext j; ring
    rw [e2, e1, e1]
    simp only [abs_neg]
    ring
  · intro hpos hle
    rw [hsum]
    have hw : ∀ j < n, 0 ≤ 1 - (1 - (j : K) / n) * (1 - (j : K) / n) ∧
        1 - (1 - (j : K) / n) * (1 - (j : K) / n) ≤ 1 := by
      intro j hj
      have h0 : 0 ≤ (j : K) / n := div_nonneg (Nat.cast_nonneg _) (Nat.cast_nonneg _)
      have h1 : (j : K) / n ≤ 1 := by
        rw [div_le_one (by exact_mod_cast hn)]
        exact_mod_cast hj.le
      have h2 : 0 ≤ 1 - (j : K) / n := by linarith
      have h3 : (1 - (j : K) / n) * (1 - (j : K) / n) ≤ 1 * 1 :=
        mul_le_mul (by linarith) (by linarith) h2 zero_le_one
      have h4 := mul_nonneg h2 h2
      constructor <;> linarith
    have hCi : 0 ≤ io.irDrop * dropPoly ((n : K) / io.gRatio *
        ∑ j ∈ Finset.range n, |m i j| * |x j|) := mul_nonneg hi.le hC
    constructor
    · apply Finset.sum_nonneg
      intro j hj
      have hj' := Finset.mem_range.1 hj
      obtain ⟨a1, a2⟩ := hpos j hj'
      obtain ⟨b1, b2⟩ := hw j hj'
      apply mul_nonneg (mul_nonneg a1 a2)
      have := mul_le_mul hle b2 b1 zero_le_one
      linarith
    · apply Finset.sum_le_sum
      intro j hj
      have hj' := Finset.mem_range.1 hj
      obtain ⟨a1, a2⟩ := hpos j hj'
      obtain ⟨b1, b2⟩ := hw j hj'
      apply mul_le_of_le_one_right (mul_nonneg a1 a2)
      have := mul_nonneg hCi b1
      linarith

/-! ## Voltage offsets -/

/-- Division by the series resistance. -/
def series (r M y : K) : K := y / (1 + min (r * |y|) M)

theorem series_mono {r M : K} (hr : 0 ≤ r) (hM : 0 ≤ M) {y z : K} (h : y ≤ z) :
    series r M y ≤ series r M z := by
  have hd : ∀ y : K, 0 < 1 + min (r * |y|) M := fun y =>
    add_pos_of_pos_of_nonneg one_pos (le_min (mul_nonneg hr (abs_nonneg _)) hM)
  have hodd : ∀ y : K, series r M (-y) = -series r M y := by
    intro y; unfold series; rw [abs_neg, neg_div]
  have hnn : ∀ y : K, 0 ≤ y → 0 ≤ series r M y := fun y h => div_nonneg h (hd y).le
  have hpos : ∀ y z : K, 0 ≤ y → y ≤ z → series r M y ≤ series r M z := by
    intro y z h0 h
    unfold series
    rw [div_le_div_iff₀ (hd y) (hd z), abs_of_nonneg h0, abs_of_nonneg (le_trans h0 h)]
    have key : y * min (r * z) M ≤ z * min (r * y) M := by
      rcases min_choice (r * y) M with e | e
      · rw [e]
        calc y * min (r * z) M ≤ y * (r * z) := mul_le_mul_of_nonneg_left (min_le_left _ _) h0
          _ = z * (r * y) := by ring
      · rw [e]
        calc y * min (r * z) M ≤ y * M := mul_le_mul_of_nonneg_left (min_le_right _ _) h0
          _ ≤ z * M := mul_le_mul_of_nonneg_right h hM
    linarith [mul_add y 1 (min (r * z) M), mul_add z 1 (min (r * y) M)]
  rcases le_or_gt 0 y with h0 | h0
  · exact hpos y z h0 h
  · rcases le_or_gt z 0 with h1 | h1
    · have := hpos (-z) (-y) (by linarith) (by linarith)
      rw [hodd, hodd] at this
      linarith
    · have a1 := hnn (-y) (by linarith)
      have a2 := hnn z h1.le
      rw [hodd] at a1
      linarith

/-- **C63 (voltage offsets).**  Without conductance offset (`v_offset_w_min = 0`) an offset `v` scales the
output by `1 - v` and the series resistance divides it by `1 + min(r·|y|, r_max_total)`; so zero offset and
resistance change nothing, and for offsets in `[0, 1]` the output keeps its sign, never grows, and
depends monotonically on the ideal one. -/
theorem C63_voltage (io : IO K) (p : MVPar K) (hw : io.vOffWMin = 0) (n : Nat) (x : Nat → K) (i : Nat)
    (hM : 0 ≤ io.rMaxTotal) :
    (∀ y, io.voltage p n x y i = (1 - p.vOff i) * series (max io.rSeries 0) io.rMaxTotal (y i)) ∧
    (p.vOff i = 0 → io.rSeries ≤ 0 → ∀ y, io.voltage p n x y i = y i) ∧
    (0 ≤ p.vOff i → p.vOff i ≤ 1 → (∀ y, |io.voltage p n x y i| ≤ |y i|) ∧
      ∀ y y' : Nat → K, y i ≤ y' i → io.voltage p n x y i ≤ io.voltage p n x y' i) := by
  have hform : ∀ y, io.voltage p n x y i = (1 - p.vOff i) * series (max io.rSeries 0) io.rMaxTotal (y i) := by
    intro y
    unfold IO.voltage series
    simp only
    rw [if_pos hw]
    by_cases hr : max io.rSeries 0 ≤ 0
    · have h0 : max io.rSeries 0 = 0 := le_antisymm hr (le_max_right _ _)
      rw [if_pos hr, h0, zero_mul, min_eq_left hM, add_zero, div_one]; ring
    · rw [if_neg hr]; ring
  refine ⟨hform, ?_, ?_⟩
  · intro h1 h2 y
    rw [hform, h1, max_eq_right h2]
    unfold series
    rw [zero_mul, min_eq_left hM]
    simp
  · intro h0 h1
    constructor
    · intro y
      have hd : 1 ≤ 1 + min (max io.rSeries 0 * |y i|) io.rMaxTotal := by
        have := le_min (mul_nonneg (le_max_right io.rSeries 0) (abs_nonneg (y i))) hM
        linarith
      rw [hform, abs_mul, abs_of_nonneg (by linarith : 0 ≤ 1 - p.vOff i)]
      unfold series
      rw [abs_div, abs_of_pos (lt_of_lt_of_le one_pos hd)]
      have a1 : |y i| / (1 + min (max io.rSeries 0 * |y i|) io.rMaxTotal) ≤ |y i| :=
        div_le_self (abs_nonneg _) hd
      have a2 : 0 ≤ |y i| / (1 + min (max io.rSeries 0 * |y i|) io.rMaxTotal) :=
        div_nonneg (abs_nonneg _) (by linarith)
      calc _ ≤ 1 * (|y i| / (1 + min (max io.rSeries 0 * |y i|) io.rMaxTotal)) :=
            mul_le_mul_of_nonneg_right (by linarith) a2
        _ ≤ _ := by rw [one_mul]; exact a1
    · intro y y' h
      rw [hform, hform]
      exact mul_le_mul_of_nonneg_left (series_mono (le_max_right _ _) hM h) (by linarith)

/-- **C63 (voltage offsets with a minimal conductance).**  With `v_offset_w_min` the current `r` of a
reference line with that weight is added before and subtracted after the circuit, with the offset
entering with the opposite sign; without series resistance the result is `y·(1 - v) - 2·v·r`. -/
theorem C63_voltage_ref (io : IO K) (p : MVPar K) (hw : io.vOffWMin ≠ 0) (n : Nat) (x y : Nat → K) (i : Nat)
    (hM : 0 ≤ io.rMaxTotal) :
    ∃ r, r = -io.vOffWMin * ∑ j ∈ Finset.range n, x j ∧
      io.voltage p n x y i = (1 - p.vOff i) * series (max io.rSeries 0) io.rMaxTotal (y i + r) -
        (1 + p.vOff i) * series (max io.rSeries 0) io.rMaxTotal r ∧
      (io.rSeries ≤ 0 → io.voltage p n x y i = y i * (1 - p.vOff i) - 2 * p.vOff i * r) := by
  refine ⟨_, rfl, ?_, ?_⟩
  · unfold IO.voltage series
    simp only
    rw [if_neg hw]
    by_cases hr : max io.rSeries 0 ≤ 0
    · have h0 : max io.rSeries 0 = 0 := le_antisymm hr (le_max_right _ _)
      rw [if_pos hr, h0]
      simp only [zero_mul, min_eq_left hM, add_zero, div_one]; ring
    · rw [if_neg hr]; ring
  · intro hr
    unfold IO.voltage
    simp only
    rw [if_neg hw, if_pos (max_le hr (le_refl _))]
    ring

/-! ## Weight noise -/

/-- **C63 (output-referred weight noise).**  The noise added to output `i` has the variance of independent
weight noise: `w_noise² · Σ x_j²`, and with the PCM read noise `w_noise² · Σ |w_ij|·x_j²`. -/
theorem C63_weight_noise (io : IO K) (hw : 0 < io.wNoise) {sq : K → K}
    (hsq : ∀ a, 0 ≤ a → sq a * sq a = a) (n : Nat) (m : Nat → Nat → K) (x g y : Nat → K) (i : Nat) :
    (io.wNoiseType = .none → io.weightNoise sq n m x g y i = y i) ∧
    (io.wNoiseType = .additive → (io.weightNoise sq n m x g y i - y i) ^ 2 =
      io.wNoise ^ 2 * (∑ j ∈ Finset.range n, x j ^ 2) * g i ^ 2) ∧
    (io.wNoiseType = .pcmRead → (io.weightNoise sq n m x g y i - y i) ^ 2 =
      io.wNoise ^ 2 * (∑ j ∈ Finset.range n, |m i j| * x j ^ 2) * g i ^ 2) := by
  refine ⟨?_, ?_, ?_⟩
  · intro h; unfold IO.weightNoise; rw [h]
  · intro h
    unfold IO.weightNoise
    rw [h]
    simp only
    rw [if_pos hw, add_sub_cancel_left]
    have hs : ∑ j ∈ Finset.range n, x j ^ 2 = ∑ j ∈ Finset.range n, x j * x j :=
      Finset.sum_congr rfl fun j _ => by ring
    have h0 : 0 ≤ ∑ j ∈ Finset.range n, x j * x j := Finset.sum_nonneg fun j _ => mul_self_nonneg _
    rw [hs]
    conv_rhs => rw [← hsq _ h0]
    ring
  · intro h
    unfold IO.weightNoise
    rw [h]
    simp only
    rw [if_pos hw, add_sub_cancel_left]
    have hs : ∑ j ∈ Finset.range n, |m i j| * x j ^ 2 = ∑ j ∈ Finset.range n, |m i j| * (x j * x j) :=
      Finset.sum_congr rfl fun j _ => by ring
    have h0 : 0 ≤ ∑ j ∈ Finset.range n, |m i j| * (x j * x j) :=
      Finset.sum_nonneg fun j _ => mul_nonneg (abs_nonneg _) (mul_self_nonneg _)
    rw [hs]
    conv_rhs => rw [← hsq _ h0]
    ring

/-! ## Separate passes -/

/-- **C63 (separate passes).**  Without IR drop, series resistance, weight noise and read asymmetry, the
mode with separate positive and negative passes and one conversion gives exactly the results of the
one-pass mode. -/
theorem C63_posNeg (io : IO K) (hi : io.irDrop ≤ 0) (hr : io.rSeries ≤ 0) (hn : io.wNoiseType = .none)
    (ha : io.wReadAsym ≤ 0) (sq : K → K) (p : MVPar K) (n m : Nat) (tr : Bool) (w : Nat → Nat → K)
    (dr : Draws K) (scale : K) (scaling : Bool) (x : Nat → K) :
    ({ io with mvType := .posNeg } : IO K).analogMV sq p n m tr w dr scale scaling x =
      ({ io with mvType := .onePass } : IO K).analogMV sq p n m tr w dr scale scaling x := by
  have hlin : ∀ (M : Nat → Nat → K) (z g g' g'' : Nat → K) (i : Nat),
      io.singlePass sq p n M (fun j => if 0 < z j then z j else 0) g i +
        io.singlePass sq p n M (fun j => if z j < 0 then z j else 0) g' i =
        io.singlePass sq p n M z g'' i := by
    intro M z g g' g'' i
    have hmv : mv n M (fun j => if 0 < z j then z j else 0) i + mv n M (fun j => if z j < 0 then z j else 0) i =
        mv n M z i := by
      rw [← mv_add]
      exact mv_congr (fun _ _ => rfl) fun j _ => pos_add_neg (z j)
    have hxs : (∑ j ∈ Finset.range n, if 0 < z j then z j else 0) +
        (∑ j ∈ Finset.range n, if z j < 0 then z j else 0) = ∑ j ∈ Finset.range n, z j := by
      rw [← Finset.sum_add_distrib]
      exact Finset.sum_congr rfl fun j _ => pos_add_neg (z j)
    unfold IO.singlePass
    rw [if_neg (not_lt.2 hi), if_neg (not_lt.2 hi), if_neg (not_lt.2 hi)]
    unfold IO.weightNoise
    rw [hn]
    simp only
    cases io.hasVO with
    | false =>
      simp only [Bool.false_eq_true, if_false]
      exact hmv
    | true =>
      simp only [if_true]
      unfold IO.voltage
      simp only
      have hrs : max io.rSeries 0 ≤ 0 := max_le hr (le_refl _)
      by_cases hw : io.vOffWMin = 0
      · rw [if_pos hw, if_pos hw, if_pos hw, if_pos hrs, if_pos hrs, if_pos hrs, ← hmv]; ring
      · rw [if_neg hw, if_neg hw, if_neg hw, if_pos hrs, if_pos hrs, if_pos hrs, ← hmv, ← hxs]; ring
  have e1 : ∀ (t : MV), ({ io with mvType := t } : IO K).singlePass sq p n = io.singlePass sq p n :=
    fun t => rfl
  have e2 : ∀ (t : MV), ({ io with mvType := t } : IO K).prepare = io.prepare := fun t => rfl
  unfold IO.analogMV
  simp only [e1, e2, if_neg (not_lt.2 ha)]
  congr 1
  have hy : (fun i => io.singlePass sq p n (eff tr w) (fun j =>
      if 0 < io.prepare scale scaling (dr.inU j) (dr.inG j) (x j) then
        io.prepare scale scaling (dr.inU j) (dr.inG j) (x j) else 0) (dr.wG true) i +
      io.singlePass sq p n (eff tr w) (fun j =>
      if io.prepare scale scaling (dr.inU j) (dr.inG j) (x j) < 0 then
        io.prepare scale scaling (dr.inU j) (dr.inG j) (x j) else 0) (dr.wG false) i) =
      io.singlePass sq p n (eff tr w) (fun j => io.prepare scale scaling (dr.inU j) (dr.inG j) (x j))
        (dr.wG true) := by
    funext i
    exact hlin _ _ _ _ _ i
  rw [hy]
  unfold IO.finalize IO.adc IO.hasNLCal IO.hasNL IO.isPerfect
  simp only
  congr 1

/-! ## Construction -/

/-- **C63 (device-to-device parameters).**  The voltage offsets and nonlinearities drawn at construction
are never negative, the calibration factor is at least 1, and without `w_read_asymmetry` the weights of the
negative pass are unchanged. -/
theorem C63_populate (io : IO K) (outSize : Nat) (g : MVDraws K) :
    (io.vOffVec = [] → ∀ i, 0 ≤ (populate io outSize g).vOff i) ∧
    (io.outNLVec = [] → ∀ i, 0 ≤ (populate io outSize g).nl i) ∧
    ((∀ b, io.outBound = some b → 0 ≤ b) → 0 ≤ io.rSeries → 1 ≤ (populate io outSize g).nlf) ∧
    (io.wReadAsym = 0 → ∀ i j, (populate io outSize g).wAsym i j = 1) ∧
    (0 < outSize → io.vOffVec.length = outSize → ∀ i, (populate io outSize g).vOff i = io.vOffVec.getD i 0) ∧
    (0 < outSize → io.outNLVec.length = outSize → ∀ i, (populate io outSize g).nl i = io.outNLVec.getD i 0) ∧
    (0 ≤ io.outNoise → io.outNoiseStd = 0 → ∀ i, (populate io outSize g).outNoise i = io.outNoise) := by
  have hgd : ∀ (l : List K), l = [] → ∀ i, (0 : K) ≤ l.getD i 0 := by
    rintro l rfl i; simp
  refine ⟨?_, ?_, ?_, ?_, ?_, ?_, ?_⟩
  · intro h i
    unfold populate
    simp only
    split_ifs
    · exact le_max_right _ _
    · exact hgd _ h i
  · intro h i
    unfold populate
    simp only
    split_ifs
    · exact abs_nonneg _
    · exact hgd _ h i
  · intro hb hr
    unfold populate
    simp only
    by_cases h0 : 0 < io.slope
    · rw [if_pos h0]
      have hob : 0 ≤ io.outBound.getD 1 := by
        cases h : io.outBound with
        | none => exact zero_le_one
        | some b => exact hb b h
      have : ∀ s : K, 0 ≤ s → 1 ≤ (1 + (s / (outSize : K) + io.rSeries) * io.slope * io.outBound.getD 1) *
          (1 + (s / (outSize : K) + io.rSeries) * io.slope * io.outBound.getD 1) := by
        intro s hs
        have h1 : 0 ≤ (s / (outSize : K) + io.rSeries) * io.slope * io.outBound.getD 1 :=
          mul_nonneg (mul_nonneg (add_nonneg (div_nonneg hs (Nat.cast_nonneg _)) hr) h0.le) hob
        have h2 : 1 ≤ 1 + (s / (outSize : K) + io.rSeries) * io.slope * io.outBound.getD 1 := by linarith
        calc (1 : K) = 1 * 1 := by ring
          _ ≤ _ := mul_le_mul h2 h2 zero_le_one (by linarith)
      apply this
      by_cases hn : io.hasNL = true
      · rw [if_pos hn]; exact Finset.sum_nonneg fun _ _ => abs_nonneg _
      · rw [if_neg hn]
    · rw [if_neg h0]
  · intro h i j
    unfold populate
    simp only
    rw [h, zero_mul, add_zero]
  · intro h0 h i
    unfold populate
    simp only
    rw [if_neg (fun hc => hc.1 h)]
  · intro h0 h i
    unfold populate
    simp only
    rw [if_neg (fun hc => hc.2 h)]
  · intro h0 h i
    unfold populate
    simp only
    rw [h, zero_mul, add_zero, mul_one, abs_of_nonneg h0]

/-- **C63 (initialization).**  What the parameters become when a tile is built: resolutions above 1 are
numbers of states, the step is that fraction of the whole range, non-positive bounds are infinite, the
backward pass has no bound management.  Noise management with another input bound than 1, and a voltage
offset vector of the wrong length, raise. -/
theorem C63_init (fwd : Bool) (outSize : Nat) (io : IO K) (hp : io.perfect = false) (hm : io.mvType ≠ .ideal)
    {ib ob : K} (hib : io.inpBound = some ib) (hob : io.outBound = some ob) :
    (initIO fwd outSize io = .error .runtimeError ↔
      (io.nm ≠ .none ∧ ib ≠ 1) ∨ (io.vOffVec ≠ [] ∧ io.vOffVec.length ≠ outSize)) ∧
    ∀ r, initIO fwd outSize io = .ok r →
      (0 ≤ io.inpRes → r.inpRes = (if 1 < io.inpRes then 1 / io.inpRes else io.inpRes) * (2 * ib)) ∧
      (io.inpRes < 0 → r.inpRes = 0) ∧
      (0 ≤ io.outRes → r.outRes = (if 1 < io.outRes then 1 / io.outRes else io.outRes) * (2 * ob)) ∧
      (io.outRes < 0 → r.outRes = 0) ∧
      (0 < ib → r.inpBound = some ib) ∧ (ib ≤ 0 → r.inpBound = none) ∧
      (0 < ob → r.outBound = some ob) ∧ (ob ≤ 0 → r.outBound = none) ∧
      (io.nm ≠ .none → r.nmThres = io.nmThres) ∧
      (fwd = true → r.bm = io.bm) ∧ (fwd = false → r.bm = .none) := by
  have hguard : ¬(io.mvType = .ideal ∨ io.perfect = true) := by
    rintro (h | h)
    · exact hm h
    · rw [hp] at h; cases h
  have hlen : 0 < io.vOffVec.length ↔ io.vOffVec ≠ [] := List.length_pos_iff
  have hres : ∀ r : K, (0 ≤ r → checkRes r = if 1 < r then 1 / r else r) ∧ (r < 0 → checkRes r = 0) := by
    intro r
    unfold checkRes
    constructor
    · intro h; simp only [if_neg (not_lt.2 h)]
    · intro h; simp only [if_pos h]; rw [if_neg (by norm_num)]
  unfold initIO
  rw [if_neg hguard, hib, hob]
  simp only
  constructor
  · by_cases h1 : io.nm ≠ .none ∧ ib ≠ 1
    · rw [if_pos h1]; exact ⟨fun _ => Or.inl h1, fun _ => rfl⟩
    · rw [if_neg h1]
      by_cases h2 : 0 < io.vOffVec.length ∧ io.vOffVec.length ≠ outSize
      · rw [if_pos h2]; exact ⟨fun _ => Or.inr ⟨hlen.1 h2.1, h2.2⟩, fun _ => rfl⟩
      · rw [if_neg h2]
        refine ⟨fun h => (by cases h), fun h => ?_⟩
        rcases h with h | h
        · exact absurd h h1
        · exact absurd ⟨hlen.2 h.1, h.2⟩ h2
  · intro r h
    by_cases h1 : io.nm ≠ .none ∧ ib ≠ 1
    · rw [if_pos h1] at h; cases h
    rw [if_neg h1] at h
    by_cases h2 : 0 < io.vOffVec.length ∧ io.vOffVec.length ≠ outSize
    · rw [if_pos h2] at h; cases h
    rw [if_neg h2] at h
    cases h
    refine ⟨?_, ?_, ?_, ?_, ?_, ?_, ?_, ?_, ?_, ?_, ?_⟩
    · intro h; simp only; rw [(hres _).1 h]
    · intro h; simp only; rw [(hres _).2 h, zero_mul]
    · intro h; simp only; rw [(hres _).1 h]
    · intro h; simp only; rw [(hres _).2 h, zero_mul]
    · intro h; simp only; unfold toBound; rw [if_neg (not_le.2 h)]
    · intro h; simp only; unfold toBound; rw [if_pos h]
    · intro h; simp only; unfold toBound; rw [if_neg (not_le.2 h)]
    · intro h; simp only; unfold toBound; rw [if_pos h]
    · intro h; simp only; rw [if_neg h]
    · rintro rfl; rfl
    · rintro rfl; rfl

/-- **C63 (finding: nonlinearity vector).**  A nonlinearity vector of the wrong length does not raise,
unlike a voltage offset vector: initialization accepts it, and it is silently replaced by random values. -/
theorem C63_nl_vector_ignored (fwd : Bool) (outSize : Nat) (io : IO K) (l : List K) (hl : l ≠ [])
    (hlen : l.length ≠ outSize) (hio : io.outNLVec = l) (hp : io.isPerfect = false) {r : IO K}
    (_hr : initIO fwd outSize { io with outNLVec := [] } = .ok r) :
    (∃ r', initIO fwd outSize io = .ok r') ∧ ∀ g i, (populate io outSize g).nl i =
      |io.outNL / io.outBound.getD 1 * (1 + max io.outNLStd 0 * g.nl i)| := by
  constructor
  · unfold initIO at _hr ⊢
    simp only at _hr
    by_cases h : io.mvType = .ideal ∨ io.perfect = true
    · rw [if_pos h]; exact ⟨_, rfl⟩
    rw [if_neg h] at _hr ⊢
    cases hob : io.outBound with
    | none => rw [hob] at _hr; cases _hr
    | some ob =>
      cases hib : io.inpBound with
      | none => rw [hob, hib] at _hr; cases _hr
      | some ib =>
        rw [hob, hib] at _hr
        simp only at _hr ⊢
        by_cases h1 : io.nm ≠ .none ∧ ib ≠ 1
        · rw [if_pos h1] at _hr; cases _hr
        · rw [if_neg h1] at _hr ⊢
          by_cases h2 : 0 < io.vOffVec.length ∧ io.vOffVec.length ≠ outSize
          · rw [if_pos h2] at _hr; cases _hr
          · rw [if_neg h2]; exact ⟨_, rfl⟩
  · intro g i
    have hcal : io.hasNLCal = true := by
      unfold IO.hasNLCal IO.hasNL
      have : 0 < io.outNLVec.length := by rw [hio]; exact List.length_pos_iff.2 hl
      simp [hp, this]
    unfold populate
    simp only
    rw [if_pos ⟨hcal, by rw [hio]; exact hlen⟩]

end Aihw.CppFwd
