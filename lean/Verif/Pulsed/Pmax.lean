import Verif.Pulsed.Props2
import Mathlib.Analysis.SpecialFunctions.Exp
import Mathlib.Analysis.SpecialFunctions.Pow.Real

/-!
# C75: the `SoftBoundsPmaxDevice` parameterisation

`configs/devices.py:600-679`, composed with the C++ population of a soft-bounds cell
(`populateCell`, `populateLinear`) and its noise-free pulse response (`train`).
-/
namespace Aihw.Pulsed

/-- The four parameters of `SoftBoundsPmaxDevice` (devices.py:646-660). -/
structure Pmax where
  pMax : Int
  alpha : ℝ
  rMin : ℝ
  rMax : ℝ

/-- `SoftBoundsPmaxDevice.as_bindings` (devices.py:666-679): the soft-bounds parameters.  All other
attributes (`base`) are copied.  Division by zero raises; the `OverflowError` of `exp` for
exponents above 709 is not modelled (it needs a negative `p_max * alpha`). -/
noncomputable def Pmax.bind (q : Pmax) (base : PopPar ℝ) : Except PyErr (PopPar ℝ) :=
  let den := 1 - Real.exp (-(q.pMax : ℝ) * q.alpha)
  if den = 0 then .error .zeroDivision
  else
    let b := (q.rMax - q.rMin) / den
    if b = 0 then .error .zeroDivision
    else .ok { base with
      wMin := q.rMin
      wMax := q.rMin + b
      dwMin := b * q.alpha
      upDown := 1 + 2 * q.rMin / b }

/-- The amplitude `B` of the documentation (devices.py:611-620). -/
noncomputable def Pmax.B (q : Pmax) : ℝ := (q.rMax - q.rMin) / (1 - Real.exp (-(q.pMax : ℝ) * q.alpha))

/-- The documented response to `n` up pulses from `range_min`: `B (1 - exp(-alpha n)) + range_min`. -/
noncomputable def Pmax.doc (q : Pmax) (n : Nat) : ℝ := q.B * (1 - Real.exp (-q.alpha * n)) + q.rMin

/-- No device-to-device variation, no bound adjustment, no perfect bias, and the draw does not
corrupt the cell. -/
def NoVariation (p : PopPar ℝ) (r : PopDraw ℝ) : Prop :=
  p.wMinDtod = 0 ∧ p.wMaxDtod = 0 ∧ p.dwMinDtod = 0 ∧ p.upDownDtod = 0 ∧ p.adjust = false ∧
  p.corruptProb ≤ r.uCorrupt ∧ p.perfectBias = false

/-- Sensible parameters: at least one pulse, slope in `(0, 1/2]`, and a range containing zero. -/
def Pmax.Ok (q : Pmax) : Prop := 1 ≤ q.pMax ∧ 0 < q.alpha ∧ q.alpha ≤ 1 / 2 ∧ q.rMin < 0 ∧ 0 ≤ q.rMax

theorem Pmax.den_pos {q : Pmax} (h : q.Ok) :
    0 < 1 - Real.exp (-(q.pMax : ℝ) * q.alpha) ∧ 1 - Real.exp (-(q.pMax : ℝ) * q.alpha) < 1 := by
  obtain ⟨h1, h2, -⟩ := h
  have hp : (1 : ℝ) ≤ q.pMax := by exact_mod_cast h1
  have : -(q.pMax : ℝ) * q.alpha < 0 := by nlinarith
  have h3 : Real.exp (-(q.pMax : ℝ) * q.alpha) < 1 := by rw [← Real.exp_zero]; exact Real.exp_lt_exp.2 this
  have h4 := Real.exp_pos (-(q.pMax : ℝ) * q.alpha)
  constructor <;> linarith

theorem Pmax.B_gt {q : Pmax} (h : q.Ok) : 0 < q.B ∧ q.rMax - q.rMin < q.B := by
  obtain ⟨d1, d2⟩ := den_pos h
  obtain ⟨-, -, -, h4, h5⟩ := h
  have hr : 0 < q.rMax - q.rMin := by linarith
  unfold Pmax.B
  refine ⟨div_pos hr d1, ?_⟩
  rw [lt_div_iff₀ d1]
  nlinarith

/-- The parameters computed for the simulator. -/
theorem Pmax.bind_ok {q : Pmax} (h : q.Ok) (base : PopPar ℝ) :
    q.bind base = .ok { base with wMin := q.rMin, wMax := q.rMin + q.B, dwMin := q.B * q.alpha, upDown := 1 + 2 * q.rMin / q.B } := by
  unfold Pmax.bind
  simp only
  have hb := (B_gt h).1.ne'
  unfold Pmax.B at hb ⊢
  rw [if_neg (den_pos h).1.ne', if_neg hb]

/-- The relative step of the cell towards the upper bound: at most twice the requested slope. -/
noncomputable def Pmax.slopeUp (q : Pmax) : ℝ := q.alpha * min (q.B / (q.B + q.rMin)) 2

/-- The relative step towards the lower bound. -/
noncomputable def Pmax.slopeDown (q : Pmax) : ℝ := q.alpha * min (q.B / -q.rMin) 2

/-- The populated cell. -/
theorem Pmax.cell {q : Pmax} (h : q.Ok) (base par : PopPar ℝ) (th : ℝ → ℝ) (lastCol : Bool) (r : PopDraw ℝ)
    (hpar : q.bind base = .ok par) (hn : NoVariation base r) :
    ∃ c : Cell ℝ, populateCell Real.exp th par lastCol r = .ok c ∧ c.maxB = q.rMin + q.B ∧ c.minB = q.rMin ∧
      c.up = q.slopeUp * c.maxB ∧ c.down = q.slopeDown * -c.minB := by
  rw [bind_ok h] at hpar
  obtain ⟨b1, b2⟩ := B_gt h
  obtain ⟨h1, h2, h3, h4, h5⟩ := h
  cases hpar
  obtain ⟨n1, n2, n3, n4, n5, n6, n7⟩ := hn
  have hmax : 0 < q.rMin + q.B := by linarith
  have hneg : 0 < -q.rMin := by linarith
  have up_nonneg : 0 ≤ (if 0 < 1 + 2 * q.rMin / q.B then (0 : ℝ) else 1 + 2 * q.rMin / q.B) + 1 := by
    split_ifs with hu
    · norm_num
    · have : -1 ≤ q.rMin / q.B := by rw [le_div_iff₀ b1]; linarith
      have e : 2 * q.rMin / q.B = 2 * (q.rMin / q.B) := by ring
      rw [e]; linarith
  have down_nonneg : 0 ≤ (if 0 < 1 + 2 * q.rMin / q.B then -(1 + 2 * q.rMin / q.B) else (0 : ℝ)) + 1 := by
    split_ifs with hu
    · have : q.rMin / q.B ≤ 0 := div_nonpos_of_nonpos_of_nonneg h4.le b1.le
      have e : 2 * q.rMin / q.B = 2 * (q.rMin / q.B) := by ring
      rw [e]; linarith
    · norm_num
  have eU : ((if 0 < 1 + 2 * q.rMin / q.B then (0 : ℝ) else 1 + 2 * q.rMin / q.B) + 1) * (q.B * q.alpha)
      = q.slopeUp * (q.rMin + q.B) := by
    unfold Pmax.slopeUp
    have hBr : 0 < q.B + q.rMin := by linarith
    split_ifs with hu
    · rw [min_eq_left]
      · field_simp; ring
      · rw [div_le_iff₀ hBr]
        have : 0 < (1 + 2 * q.rMin / q.B) * q.B := mul_pos hu b1
        have e : (1 + 2 * q.rMin / q.B) * q.B = q.B + 2 * q.rMin := by field_simp
        linarith
    · rw [min_eq_right]
      · field_simp; ring
      · rw [le_div_iff₀ hBr]
        have : (1 + 2 * q.rMin / q.B) * q.B ≤ 0 := mul_nonpos_of_nonpos_of_nonneg (not_lt.1 hu) b1.le
        have e : (1 + 2 * q.rMin / q.B) * q.B = q.B + 2 * q.rMin := by field_simp
        linarith
  have eD : ((if 0 < 1 + 2 * q.rMin / q.B then -(1 + 2 * q.rMin / q.B) else (0 : ℝ)) + 1) * (q.B * q.alpha)
      = q.slopeDown * -q.rMin := by
    unfold Pmax.slopeDown
    split_ifs with hu
    · rw [min_eq_right]
      · field_simp; ring
      · rw [le_div_iff₀ hneg]
        have : 0 < (1 + 2 * q.rMin / q.B) * q.B := mul_pos hu b1
        have e : (1 + 2 * q.rMin / q.B) * q.B = q.B + 2 * q.rMin := by field_simp
        linarith
    · rw [min_eq_left]
      · have : q.B / -q.rMin * -q.rMin = q.B := div_mul_cancel₀ _ hneg.ne'
        rw [mul_assoc, this]; ring
      · rw [div_le_iff₀ hneg]
        have : (1 + 2 * q.rMin / q.B) * q.B ≤ 0 := mul_nonpos_of_nonpos_of_nonneg (not_lt.1 hu) b1.le
        have e : (1 + 2 * q.rMin / q.B) * q.B = q.B + 2 * q.rMin := by field_simp
        linarith
  have hdw : 0 ≤ q.B * q.alpha := (mul_pos b1 h2).le
  unfold populateCell
  simp only [n1, n2, n3, n4, n7, zero_mul, add_zero, mul_one, sub_zero, Real.exp_zero, ite_self]
  rw [if_neg (by rw [not_or]; exact ⟨by linarith, by linarith⟩)]
  have hcor : ¬ r.uCorrupt < base.corruptProb := not_lt.2 n6
  have hU := abs_of_nonneg (mul_nonneg up_nonneg hdw)
  have hD := abs_of_nonneg (mul_nonneg down_nonneg hdw)
  have hbnd : ∀ p : PopPar ℝ, enforceBounds p (q.rMin + q.B) q.rMin = (q.rMin + q.B, q.rMin) := by
    intro p
    unfold enforceBounds
    have hlt : ¬ q.rMin + q.B < q.rMin := by linarith
    simp only [if_neg hlt]
    split_ifs
    · rw [abs_of_pos hmax, abs_of_neg h4, neg_neg]
    · rfl
  simp only [hbnd]
  unfold adjustBounds
  simp only [n5, Bool.false_eq_true, if_false, Bool.false_and, hcor, decide_false]
  refine ⟨_, rfl, rfl, rfl, ?_, ?_⟩
  · simp only
    rw [hU, ite_self]; exact eU
  · simp only
    rw [hD, ite_self]; exact eD

theorem Pmax.slope_bounds {q : Pmax} (h : q.Ok) :
    q.alpha < q.slopeUp ∧ q.slopeUp ≤ 1 ∧ q.alpha < q.slopeDown ∧ q.slopeDown ≤ 1 := by
  obtain ⟨b1, b2⟩ := B_gt h
  obtain ⟨h1, h2, h3, h4, h5⟩ := h
  have hBr : 0 < q.B + q.rMin := by linarith
  have hneg : 0 < -q.rMin := by linarith
  unfold Pmax.slopeUp Pmax.slopeDown
  have e1 : 1 < min (q.B / (q.B + q.rMin)) 2 := by
    rw [lt_min_iff, lt_div_iff₀ hBr]; constructor <;> linarith
  have e2 : 1 < min (q.B / -q.rMin) 2 := by
    rw [lt_min_iff, lt_div_iff₀ hneg]; constructor <;> linarith
  refine ⟨by nlinarith, ?_, by nlinarith, ?_⟩
  · have := min_le_right (q.B / (q.B + q.rMin)) 2; nlinarith
  · have := min_le_right (q.B / -q.rMin) 2; nlinarith

end Aihw.Pulsed
