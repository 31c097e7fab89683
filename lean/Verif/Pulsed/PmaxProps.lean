import Verif.Pulsed.Pmax

/-!
# C75: response of a `SoftBoundsPmaxDevice`
-/
namespace Aihw.Pulsed

/-- A cell of a tile built from `SoftBoundsPmaxDevice` parameters `q` without variations. -/
def PmaxCell (q : Pmax) (base : PopPar ℝ) (c : Cell ℝ) : Prop :=
  ∃ (par : PopPar ℝ) (th : ℝ → ℝ) (lastCol : Bool) (r : PopDraw ℝ) (c0 : Cell ℝ) (lp : LinPar ℝ) (g1 g2 : ℝ),
    q.bind base = .ok par ∧ NoVariation base r ∧ populateCell Real.exp th par lastCol r = .ok c0 ∧
    SoftBounds lp ∧ populateLinear lp c0 g1 g2 = .ok c

theorem pmaxCell_spec {q : Pmax} (h : q.Ok) {base : PopPar ℝ} {c : Cell ℝ} (hc : PmaxCell q base c)
    (F : Fns ℝ) (p : Par ℝ) (m : Bool) (w : ℝ) (h1 : q.rMin ≤ w) (h2 : w ≤ q.rMin + q.B) (n : Nat) :
    train F (.linear m) p c false n w = (q.rMin + q.B) - (q.rMin + q.B - w) * (1 - q.slopeUp) ^ n ∧
    train F (.linear m) p c true n w = q.rMin + (w - q.rMin) * (1 - q.slopeDown) ^ n := by
  obtain ⟨par, th, lastCol, r, c0, lp, g1, g2, e1, e2, e3, e4, e5⟩ := hc
  obtain ⟨c', f0, f1, f2, f3, f4⟩ := Pmax.cell h base par th lastCol r e1 e2
  rw [e3] at f0
  cases f0
  obtain ⟨s1, s2, s3, s4⟩ := Pmax.slope_bounds h
  obtain ⟨b1, b2⟩ := Pmax.B_gt h
  obtain ⟨-, ha, -, hr, hR⟩ := h
  have hfr : c.maxB = c0.maxB ∧ c.minB = c0.minB ∧ c.up = c0.up ∧ c.down = c0.down := by
    unfold populateLinear at e5
    split at e5
    · cases e5
    · simp only [Except.ok.injEq] at e5
      subst e5
      exact ⟨rfl, rfl, rfl, rfl⟩
  obtain ⟨k1, k2, k3, k4⟩ := hfr
  have hmx : 0 < c0.maxB := by rw [f1]; linarith
  have hmn : 0 < -c0.minB := by rw [f2]; linarith
  have t := C46_soft_bounds_train F p lp c c0 g1 g2 m e4 e5 (by rw [k1]; exact hmx) (by rw [k2]; linarith)
    (by rw [k3, f3]; exact mul_nonneg (by linarith) hmx.le)
    (by rw [k1, k3, f3]; nlinarith)
    (by rw [k4, f4]; exact mul_nonneg (by linarith) hmn.le)
    (by rw [k2, k4, f4]; nlinarith) w (by rw [k2, f2]; exact h1) (by rw [k1, f1]; exact h2) n
  rw [k1, k2, k3, k4] at t
  have eu : c0.up / c0.maxB = q.slopeUp := by rw [f3, mul_div_assoc, div_self hmx.ne', mul_one]
  have ed : c0.down / -c0.minB = q.slopeDown := by rw [f4, mul_div_assoc, div_self hmn.ne', mul_one]
  rw [eu, ed, f1, f2] at t
  exact t

/-- **C75 (up pulses).**  From any reachable weight `w`, `n` noise-free up pulses on a device
configured by `p_max`, `alpha`, `range_min`, `range_max` give
`w_max - (w_max - w) (1 - s)^n` with `w_max = range_min + B` and
`s = alpha * min(B / w_max, 2)`. -/
theorem C75_up_response (q : Pmax) (h : q.Ok) (base : PopPar ℝ) (c : Cell ℝ) (hc : PmaxCell q base c)
    (F : Fns ℝ) (p : Par ℝ) (m : Bool) (w : ℝ) (h1 : q.rMin ≤ w) (h2 : w ≤ q.rMin + q.B) (n : Nat) :
    train F (.linear m) p c false n w
      = (q.rMin + q.B) - (q.rMin + q.B - w) * (1 - q.alpha * min (q.B / (q.rMin + q.B)) 2) ^ n := by
  rw [(pmaxCell_spec h hc F p m w h1 h2 n).1, add_comm q.rMin q.B]
  rfl

/-- **C75 (down pulses).**  `n` noise-free down pulses give
`range_min + (w - range_min) (1 - s)^n` with `s = alpha * min(B / -range_min, 2)`: `range_min` is
approached, not left. -/
theorem C75_down_response (q : Pmax) (h : q.Ok) (base : PopPar ℝ) (c : Cell ℝ) (hc : PmaxCell q base c)
    (F : Fns ℝ) (p : Par ℝ) (m : Bool) (w : ℝ) (h1 : q.rMin ≤ w) (h2 : w ≤ q.rMin + q.B) (n : Nat) :
    train F (.linear m) p c true n w
      = q.rMin + (w - q.rMin) * (1 - q.alpha * min (q.B / -q.rMin) 2) ^ n ∧
    q.rMin ≤ train F (.linear m) p c true n w := by
  have e := (pmaxCell_spec h hc F p m w h1 h2 n).2
  refine ⟨e, ?_⟩
  rw [e]
  have := (Pmax.slope_bounds h).2.2.2
  have := mul_nonneg (show 0 ≤ w - q.rMin by linarith) (pow_nonneg (show 0 ≤ 1 - q.slopeDown by linarith) n)
  linarith

/-- The documented curve goes from `range_min` at no pulse to `range_max` at `p_max` pulses. -/
theorem C75_documented_curve (q : Pmax) (h : q.Ok) : q.doc 0 = q.rMin ∧ q.doc q.pMax.toNat = q.rMax := by
  have hd := (Pmax.den_pos h).1
  obtain ⟨h1, -⟩ := h
  unfold Pmax.doc
  constructor
  · simp
  · have e : ((q.pMax.toNat : ℕ) : ℝ) = (q.pMax : ℝ) := by
      have : ((q.pMax.toNat : ℕ) : ℤ) = q.pMax := Int.toNat_of_nonneg (by omega)
      exact_mod_cast this
    rw [e, show -q.alpha * (q.pMax : ℝ) = -(q.pMax : ℝ) * q.alpha by ring]
    unfold Pmax.B
    rw [div_mul_cancel₀ _ hd.ne']
    ring

/-- **C75 (deviation from the documentation).**  The simulated response to `n ≥ 1` up pulses from
`range_min` is *strictly above* the documented curve `B (1 - exp(-alpha n)) + range_min`; in
particular after the documented number `p_max` of pulses the device has passed `range_max`. -/
theorem C75_overshoots (q : Pmax) (h : q.Ok) (base : PopPar ℝ) (c : Cell ℝ) (hc : PmaxCell q base c)
    (F : Fns ℝ) (p : Par ℝ) (m : Bool) :
    (∀ n : Nat, 1 ≤ n → q.doc n < train F (.linear m) p c false n q.rMin) ∧
    q.rMax < train F (.linear m) p c false q.pMax.toNat q.rMin := by
  have main : ∀ n : Nat, 1 ≤ n → q.doc n < train F (.linear m) p c false n q.rMin := by
    intro n hn
    obtain ⟨b1, -⟩ := Pmax.B_gt h
    rw [(pmaxCell_spec h hc F p m q.rMin le_rfl (by linarith) n).1]
    obtain ⟨s1, s2, -⟩ := Pmax.slope_bounds h
    have k1 : 1 - q.slopeUp ≤ Real.exp (-q.slopeUp) := by
      have := Real.add_one_le_exp (-q.slopeUp); linarith
    have k2 : (1 - q.slopeUp) ^ n ≤ Real.exp (-q.slopeUp) ^ n := pow_le_pow_left₀ (by linarith) k1 n
    have k3 : Real.exp (-q.slopeUp) ^ n < Real.exp (-q.alpha) ^ n :=
      pow_lt_pow_left₀ (Real.exp_lt_exp.2 (by linarith)) (Real.exp_pos _).le (by omega)
    have k4 : Real.exp (-q.alpha) ^ n = Real.exp (-q.alpha * n) := by
      rw [← Real.exp_nat_mul]; congr 1; ring
    rw [k4] at k3
    unfold Pmax.doc
    have : q.B * (1 - q.slopeUp) ^ n < q.B * Real.exp (-q.alpha * n) :=
      mul_lt_mul_of_pos_left (lt_of_le_of_lt k2 k3) b1
    have e : q.rMin + q.B - q.rMin = q.B := by ring
    rw [e]
    linarith
  refine ⟨main, ?_⟩
  rw [← (C75_documented_curve q h).2]
  have h1 : 1 ≤ q.pMax := h.1
  exact main _ (by omega)

/-- **C75 (bounds).**  Whatever the pulses, the device stays between `range_min` and
`range_min + B`; the upper bound is strictly above `range_max`. -/
theorem C75_bounds (q : Pmax) (h : q.Ok) (base : PopPar ℝ) (c : Cell ℝ) (hc : PmaxCell q base c) :
    c.minB = q.rMin ∧ c.maxB = q.rMin + q.B ∧ q.rMax < c.maxB := by
  obtain ⟨par, th, lastCol, r, c0, lp, g1, g2, e1, e2, e3, e4, e5⟩ := hc
  obtain ⟨c', f0, f1, f2, -⟩ := Pmax.cell h base par th lastCol r e1 e2
  rw [e3] at f0
  cases f0
  have hfr : c.maxB = c0.maxB ∧ c.minB = c0.minB := by
    unfold populateLinear at e5
    split at e5
    · cases e5
    · simp only [Except.ok.injEq] at e5
      subst e5
      exact ⟨rfl, rfl⟩
  have := (Pmax.B_gt h).2
  refine ⟨by rw [hfr.2, f2], by rw [hfr.1, f1], by rw [hfr.1, f1]; linarith⟩

/-- **C75 (parameters).**  The parameters handed to the simulator are those of the documentation, and
all other attributes are passed unchanged; the conversion fails exactly for `p_max * alpha = 0`
or an empty range. -/
theorem C75_parameters (q : Pmax) (base : PopPar ℝ) :
    ((q.pMax : ℝ) * q.alpha = 0 ∨ q.rMax = q.rMin → q.bind base = .error .zeroDivision) ∧
    (¬ ((q.pMax : ℝ) * q.alpha = 0 ∨ q.rMax = q.rMin) → q.bind base = .ok
      { base with wMin := q.rMin, wMax := q.rMin + q.B, dwMin := q.B * q.alpha, upDown := 1 + 2 * q.rMin / q.B }) := by
  have hden : 1 - Real.exp (-(q.pMax : ℝ) * q.alpha) = 0 ↔ (q.pMax : ℝ) * q.alpha = 0 := by
    rw [sub_eq_zero, eq_comm, Real.exp_eq_one_iff, neg_mul, neg_eq_zero]
  constructor
  · intro h
    unfold Pmax.bind
    simp only
    by_cases h0 : (q.pMax : ℝ) * q.alpha = 0
    · rw [if_pos (hden.2 h0)]
    · rw [if_neg (fun e => h0 (hden.1 e)), if_pos]
      rw [h.resolve_left h0, sub_self, zero_div]
  · intro h
    rw [not_or] at h
    have hd : 1 - Real.exp (-(q.pMax : ℝ) * q.alpha) ≠ 0 := fun e => h.1 (hden.1 e)
    unfold Pmax.bind Pmax.B
    simp only
    rw [if_neg hd, if_neg (div_ne_zero (sub_ne_zero.2 h.2) hd)]

/-- **C75 (range without zero).**  A range above zero is accepted by the configuration but refused
when the tile is built. -/
theorem C75_positive_range_refused (q : Pmax) (base par : PopPar ℝ) (th : ℝ → ℝ) (lastCol : Bool) (r : PopDraw ℝ)
    (hp : q.bind base = .ok par) (hr : 0 < q.rMin) :
    populateCell Real.exp th par lastCol r = .error .runtimeError := by
  have hw : par.wMin = q.rMin := by
    unfold Pmax.bind at hp
    simp only at hp
    split at hp
    · cases hp
    · split at hp
      · cases hp
      · cases hp; rfl
  unfold populateCell
  rw [if_pos (Or.inl (by rw [hw]; exact hr))]

/-- **C75 (range starting at zero).**  With `range_min = 0` down pulses have no effect at all: the
down step of the device is zero. -/
theorem C75_zero_min_no_down (q : Pmax) (h1 : 1 ≤ q.pMax) (h2 : 0 < q.alpha) (h0 : q.rMin = 0) (hR : 0 < q.rMax)
    (base par : PopPar ℝ) (th : ℝ → ℝ) (lastCol : Bool) (r : PopDraw ℝ) (c : Cell ℝ) (hn : NoVariation base r)
    (hp : q.bind base = .ok par) (hc : populateCell Real.exp th par lastCol r = .ok c) : c.down = 0 ∧ c.minB = 0 := by
  have hne : ¬ ((q.pMax : ℝ) * q.alpha = 0 ∨ q.rMax = q.rMin) := by
    have hp' : (1 : ℝ) ≤ q.pMax := by exact_mod_cast h1
    rw [not_or]
    exact ⟨(mul_pos (by linarith) h2).ne', by rw [h0]; exact hR.ne'⟩
  rw [(C75_parameters q base).2 hne] at hp
  cases hp
  obtain ⟨n1, n2, n3, n4, n5, n6, n7⟩ := hn
  have hB : 0 ≤ q.B := by
    unfold Pmax.B
    apply div_nonneg
    · rw [h0]; linarith
    · have hp' : (1 : ℝ) ≤ q.pMax := by exact_mod_cast h1
      have : Real.exp (-(q.pMax : ℝ) * q.alpha) ≤ 1 := by
        rw [← Real.exp_zero]; exact Real.exp_le_exp.2 (by nlinarith)
      linarith
  have hcor : ¬ r.uCorrupt < base.corruptProb := not_lt.2 n6
  have hbnd : ∀ p : PopPar ℝ, enforceBounds p q.B 0 = (q.B, 0) := by
    intro p
    unfold enforceBounds
    simp only [if_neg (not_lt.2 hB)]
    split_ifs
    · rw [abs_of_nonneg hB, abs_zero, neg_zero]
    · rfl
  unfold populateCell at hc
  simp only [n1, n2, n3, n4, n7, h0, zero_mul, mul_zero, zero_add, add_zero, zero_div, mul_one, sub_zero, Real.exp_zero,
    ite_self, lt_self_iff_false, false_or, if_neg (not_lt.2 hB), hbnd, zero_lt_one, if_true, neg_add_cancel, abs_zero] at hc
  unfold adjustBounds at hc
  simp only [n5, Bool.false_eq_true, if_false, Bool.false_and, hcor, decide_false, Except.ok.injEq] at hc
  subst hc
  exact ⟨rfl, rfl⟩

end Aihw.Pulsed
