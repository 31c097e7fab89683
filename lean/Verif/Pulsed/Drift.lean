import Verif.Common
import Mathlib.Analysis.SpecialFunctions.Pow.Real

/-!
# Weight drift of the C++ simulator: `WeightDrifter`

Models weight_drifter.cpp:39-53 (`initialize`), 96-103 (`saturate`), 105-157 (`apply`) for one weight
element (elements do not interact), with reals for floats and the Gaussian draws as arguments.
`nu` is the drift coefficient of the element (`par.nu` or the populated `nu_[i]`).
The conductance dependence `nu_k` is modelled with the natural logarithm.
-/
namespace Aihw.Pulsed

/-- `DriftParameter` (weight_drifter.h:17-50), the parts used by `apply`. -/
structure DriftPar where
  nu : ℝ
  nuStd : ℝ
  nuK : ℝ
  logG0 : ℝ
  wgRatio : ℝ
  gOffset : ℝ
  wOffset : ℝ
  t0 : ℝ
  tol : ℝ
  readStd : ℝ

/-- Drifter state of one element: `previous_weights_`, `w0_`, `t_` and the clock `current_t_`;
`none` before the first call. -/
structure DriftSt where
  prev : ℝ
  w0 : ℝ
  t : ℝ
  cur : ℝ

/-- The offset term `a` (weight_drifter.cpp:118-121). -/
noncomputable def DriftPar.a (p : DriftPar) : ℝ :=
  if |p.gOffset * p.wgRatio + p.wOffset| < p.tol then 0 else p.gOffset * p.wgRatio + p.wOffset

/-- The drift exponent of a call (weight_drifter.cpp:140-145); `g` is the cycle-to-cycle draw. -/
noncomputable def DriftPar.nuOf (p : DriftPar) (w g : ℝ) : ℝ :=
  let nu := if p.nuStd ≤ 0 then p.nu else p.nu + p.nuStd * p.nu * g
  if p.nuK = 0 then nu
  else nu - p.nuK * Real.log ((w - p.wOffset) / p.wgRatio + p.gOffset) + p.nuK * p.logG0

/-- `initialize` (weight_drifter.cpp:39-53). -/
def driftInit (w : ℝ) : DriftSt := ⟨w, w, 0, 0⟩

/-- `apply` (weight_drifter.cpp:105-157): new weight and state.  `g` is the draw for `nu`, `g2` the
read-noise draw. -/
noncomputable def DriftPar.apply (p : DriftPar) (s : Option DriftSt) (w dt g g2 : ℝ) : ℝ × DriftSt :=
  let s := s.getD (driftInit w)
  let cur := s.cur + dt / p.t0
  let noise := if 0 < p.readStd then p.readStd * g2 else 0
  if p.tol < |s.prev - w| then (w + noise, ⟨w + noise, w, cur, cur⟩)
  else
    let sc := (max (cur - s.t) 1) ^ (-(p.nuOf w g))
    let w1 := s.w0 * sc
    let w2 := if p.a = 0 then w1 else w1 + p.a * (sc - 1)
    (w2 + noise, ⟨w2 + noise, s.w0, s.t, cur⟩)

/-- `saturate` (weight_drifter.cpp:96-103) as used by pulsed devices. -/
noncomputable def driftSaturate (mn mx : ℝ) (r : ℝ × DriftSt) : ℝ × DriftSt :=
  (min (max mn r.1) mx, { r.2 with prev := min (max mn r.2.prev) mx })

/-- One drift call of a history: elapsed time and draws. -/
structure DCall where
  dt : ℝ
  g : ℝ
  g2 : ℝ

/-- A sequence of drift calls without any other change of the weight, saturating to `[mn, mx]` after
each call. -/
noncomputable def DriftPar.runSat (p : DriftPar) (mn mx : ℝ) :
    Option DriftSt → ℝ → List DCall → ℝ × Option DriftSt
  | s, w, [] => (w, s)
  | s, w, c :: l =>
    let r := driftSaturate mn mx (p.apply s w c.dt c.g c.g2)
    p.runSat mn mx (some r.2) r.1 l

/-- The same without saturation (floating-point tiles). -/
noncomputable def DriftPar.run (p : DriftPar) : Option DriftSt → ℝ → List DCall → ℝ × Option DriftSt
  | s, w, [] => (w, s)
  | s, w, c :: l =>
    let r := p.apply s w c.dt c.g c.g2
    p.run (some r.2) r.1 l

/-! ## Specification -/

/-- Documented drift law: a weight with effective conductance `w0 + a` decays with the power law
`(t / t0)^-nu`, frozen for times shorter than `t0`. -/
noncomputable def driftLaw (w0 a nu tau : ℝ) : ℝ := (w0 + a) * (max tau 1) ^ (-nu) - a

/-- Total elapsed time of a list of calls. -/
def total (l : List DCall) : ℝ := (l.map (·.dt)).sum

/-! ## Properties -/

theorem apply_unchanged (p : DriftPar) (hk : p.nuK = 0) (s : DriftSt) (dt g g2 : ℝ)
    (htol : 0 ≤ p.tol) :
    p.apply (some s) s.prev dt g g2 =
      (driftLaw s.w0 p.a (if p.nuStd ≤ 0 then p.nu else p.nu + p.nuStd * p.nu * g)
          (s.cur + dt / p.t0 - s.t) + (if 0 < p.readStd then p.readStd * g2 else 0),
        ⟨driftLaw s.w0 p.a (if p.nuStd ≤ 0 then p.nu else p.nu + p.nuStd * p.nu * g)
          (s.cur + dt / p.t0 - s.t) + (if 0 < p.readStd then p.readStd * g2 else 0),
          s.w0, s.t, s.cur + dt / p.t0⟩) := by
  have hn : p.nuOf s.prev g = (if p.nuStd ≤ 0 then p.nu else p.nu + p.nuStd * p.nu * g) := by
    simp [DriftPar.nuOf, hk]
  have hlaw : ∀ sc : ℝ, (if p.a = 0 then s.w0 * sc else s.w0 * sc + p.a * (sc - 1)) =
      (s.w0 + p.a) * sc - p.a := by
    intro sc
    split_ifs with h
    · rw [h]; ring
    · ring
  unfold DriftPar.apply
  simp only [Option.getD_some, sub_self, abs_zero, not_lt.2 htol, if_false, hn, hlaw]
  rfl

theorem run_unchanged (p : DriftPar) (hk : p.nuK = 0) (htol : 0 ≤ p.tol) (s : DriftSt)
    (l : List DCall) (c : DCall) :
    (p.run (some s) s.prev (l ++ [c])).1 =
      driftLaw s.w0 p.a (if p.nuStd ≤ 0 then p.nu else p.nu + p.nuStd * p.nu * c.g)
        (s.cur + total (l ++ [c]) / p.t0 - s.t) +
        (if 0 < p.readStd then p.readStd * c.g2 else 0) := by
  induction l generalizing s with
  | nil =>
    simp only [List.nil_append, DriftPar.run, apply_unchanged p hk s _ _ _ htol, total,
      List.map_cons, List.map_nil, List.sum_cons, List.sum_nil, add_zero]
  | cons b l ih =>
    have e := apply_unchanged p hk s b.dt b.g b.g2 htol
    simp only [List.cons_append, DriftPar.run, e]
    have := ih ⟨driftLaw s.w0 p.a (if p.nuStd ≤ 0 then p.nu else p.nu + p.nuStd * p.nu * b.g)
          (s.cur + b.dt / p.t0 - s.t) + (if 0 < p.readStd then p.readStd * b.g2 else 0),
          s.w0, s.t, s.cur + b.dt / p.t0⟩
    simp only at this
    rw [this]
    congr 2
    simp only [total, List.map_cons, List.sum_cons]
    ring

/-- **C47 (drift depends on the total elapsed time only).**  However the elapsed time is split into
drift calls, and whatever noise the earlier calls drew, the weight read after the last call is the
documented power law of the initial weight at the total elapsed time, with the cycle-to-cycle factor
and the read noise of the last call only (neither accumulates).  Without conductance dependence
(`nu_k = 0`) and without weight changes in between. -/
theorem C47_total_time (p : DriftPar) (hk : p.nuK = 0) (htol : 0 ≤ p.tol) (w : ℝ) (l : List DCall)
    (c : DCall) :
    (p.run none w (l ++ [c])).1 =
      driftLaw w p.a (if p.nuStd ≤ 0 then p.nu else p.nu + p.nuStd * p.nu * c.g)
        (total (l ++ [c]) / p.t0) +
        (if 0 < p.readStd then p.readStd * c.g2 else 0) := by
  have h0 : ∀ l, p.run none w (l ++ [c]) = p.run (some (driftInit w)) w (l ++ [c]) := by
    intro l
    cases l <;> rfl
  rw [h0]
  have := run_unchanged p hk htol (driftInit w) l c
  simp only [driftInit] at this
  rw [show (driftInit w) = (⟨w, w, 0, 0⟩ : DriftSt) from rfl, this]
  simp

/-- **C47 (drift with bounds).**  On a pulsed device the result is in addition clipped to the bounds
of the cell, still depending on the total elapsed time only: clipping in between leaves no trace. -/
theorem C47_total_time_bounded (p : DriftPar) (hk : p.nuK = 0) (htol : 0 ≤ p.tol) (mn mx w : ℝ)
    (l : List DCall) (c : DCall) :
    (p.runSat mn mx none w (l ++ [c])).1 =
      min (max mn (driftLaw w p.a (if p.nuStd ≤ 0 then p.nu else p.nu + p.nuStd * p.nu * c.g)
        (total (l ++ [c]) / p.t0) +
        (if 0 < p.readStd then p.readStd * c.g2 else 0))) mx := by
  have key : ∀ (l : List DCall) (s : DriftSt),
      (p.runSat mn mx (some s) s.prev (l ++ [c])).1 =
      min (max mn (driftLaw s.w0 p.a (if p.nuStd ≤ 0 then p.nu else p.nu + p.nuStd * p.nu * c.g)
        (s.cur + total (l ++ [c]) / p.t0 - s.t) +
        (if 0 < p.readStd then p.readStd * c.g2 else 0))) mx := by
    intro l
    induction l with
    | nil =>
      intro s
      simp only [List.nil_append, DriftPar.runSat, apply_unchanged p hk s _ _ _ htol, total,
        List.map_cons, List.map_nil, List.sum_cons, List.sum_nil, add_zero, driftSaturate]
    | cons b l ih =>
      intro s
      have e := apply_unchanged p hk s b.dt b.g b.g2 htol
      simp only [List.cons_append, DriftPar.runSat, e, driftSaturate]
      have := ih ⟨min (max mn (driftLaw s.w0 p.a
            (if p.nuStd ≤ 0 then p.nu else p.nu + p.nuStd * p.nu * b.g)
            (s.cur + b.dt / p.t0 - s.t) + (if 0 < p.readStd then p.readStd * b.g2 else 0))) mx,
            s.w0, s.t, s.cur + b.dt / p.t0⟩
      simp only at this
      rw [this]
      congr 4
      simp only [total, List.map_cons, List.sum_cons]
      ring
  have h0 : p.runSat mn mx none w (l ++ [c]) = p.runSat mn mx (some (driftInit w)) w (l ++ [c]) := by
    cases l <;> rfl
  have := key l (driftInit w)
  simp only [driftInit] at this
  rw [h0, show (driftInit w) = (⟨w, w, 0, 0⟩ : DriftSt) from rfl, this]
  simp

/-- **C47 (a changed weight restarts its drift, one interval late).**  If the weight was changed by
more than the tolerance since the last drift call, the next call returns it undrifted however long
the interval was, and later calls drift it with the time elapsed since *that call*. -/
theorem C47_restart (p : DriftPar) (hk : p.nuK = 0) (htol : 0 ≤ p.tol) (hread : p.readStd ≤ 0)
    (s : DriftSt) (v dt g g2 : ℝ) (hv : p.tol < |s.prev - v|) (l : List DCall) (c : DCall) :
    (p.apply (some s) v dt g g2).1 = v ∧
    (p.run (some s) v (⟨dt, g, g2⟩ :: (l ++ [c]))).1 =
      driftLaw v p.a (if p.nuStd ≤ 0 then p.nu else p.nu + p.nuStd * p.nu * c.g)
        (total (l ++ [c]) / p.t0) := by
  have hr : ¬ 0 < p.readStd := not_lt.2 hread
  have e : p.apply (some s) v dt g g2 = (v, ⟨v, v, s.cur + dt / p.t0, s.cur + dt / p.t0⟩) := by
    unfold DriftPar.apply
    simp only [Option.getD_some, hv, if_true, hr, if_false, add_zero]
  refine ⟨by rw [e], ?_⟩
  simp only [DriftPar.run, e]
  have := run_unchanged p hk htol ⟨v, v, s.cur + dt / p.t0, s.cur + dt / p.t0⟩ l c
  simp only at this
  rw [this]
  simp only [hr, if_false, add_zero]
  congr 1
  ring

/-- **C47 (weights shrink monotonically).**  Without noise and offset, with a nonnegative drift
coefficient, drifting never increases the magnitude of a weight or changes its sign, and longer
times shrink it further. -/
theorem C47_shrinks (w nu tau tau' : ℝ) (hnu : 0 ≤ nu) (h : tau ≤ tau') :
    |driftLaw w 0 nu tau'| ≤ |driftLaw w 0 nu tau| ∧ |driftLaw w 0 nu tau| ≤ |w| ∧
    0 ≤ w * driftLaw w 0 nu tau := by
  have h1 : ∀ t : ℝ, 0 < (max t 1) ^ (-nu) := fun t =>
    Real.rpow_pos_of_pos (lt_of_lt_of_le one_pos (le_max_right _ _)) _
  have h2 : ∀ t : ℝ, (max t 1) ^ (-nu) ≤ 1 := fun t =>
    Real.rpow_le_one_of_one_le_of_nonpos (le_max_right _ _) (by linarith)
  have h3 : (max tau' 1) ^ (-nu) ≤ (max tau 1) ^ (-nu) :=
    Real.rpow_le_rpow_of_nonpos (lt_of_lt_of_le one_pos (le_max_right _ _))
      (max_le_max_right 1 h) (by linarith)
  unfold driftLaw
  simp only [add_zero, sub_zero, abs_mul]
  refine ⟨?_, ?_, ?_⟩
  · rw [abs_of_pos (h1 _), abs_of_pos (h1 _)]
    exact mul_le_mul_of_nonneg_left h3 (abs_nonneg _)
  · rw [abs_of_pos (h1 _)]
    calc _ ≤ |w| * 1 := mul_le_mul_of_nonneg_left (h2 _) (abs_nonneg _)
      _ = _ := mul_one _
  · rw [← mul_assoc]
    exact mul_nonneg (mul_self_nonneg w) (h1 _).le

/-- Non-vacuity: a concrete drifter (nu = 1, t0 = 1, tolerance 0, no noise), weight 6, three calls of
one time unit each: the weight is 6 / 3 = 2. -/
example : ((⟨1, 0, 0, 0, 1, 0, 0, 1, 0, 0⟩ : DriftPar).run none 6
    ([⟨1, 0, 0⟩, ⟨1, 0, 0⟩] ++ [⟨1, 0, 0⟩])).1 = 2 := by
  rw [C47_total_time _ rfl le_rfl]
  simp only [driftLaw, DriftPar.a, total]
  norm_num [Real.rpow_neg_one]

/-- Non-vacuity of `C47_restart`: a weight rewritten to 8 after two calls does not drift in the next
interval of 10 units and is 8 / 2 = 4 two units later. -/
example : ((⟨1, 0, 0, 0, 1, 0, 0, 1, 0, 0⟩ : DriftPar).run (some ⟨3, 6, 0, 2⟩) 8
    (⟨10, 0, 0⟩ :: ([] ++ [⟨2, 0, 0⟩]))).1 = 4 := by
  rw [(C47_restart _ rfl le_rfl le_rfl _ 8 10 0 0 (by norm_num) [] ⟨2, 0, 0⟩).2]
  simp only [driftLaw, DriftPar.a, total]
  norm_num [Real.rpow_neg_one]

end Aihw.Pulsed
