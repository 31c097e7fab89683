import Verif.GpuPulse.Model

/-!
# C35 on the GPU
-/
namespace Aihw.GpuPulse

open Aihw.Pulsed

/-! ## Lemmas -/

theorem foldr_max_le (l : List ℝ) (a : ℝ) : l.foldr max 0 ≤ a ↔ 0 ≤ a ∧ ∀ v ∈ l, v ≤ a := by
  induction l with
  | nil => simp
  | cons v l ih => simp only [List.foldr_cons, max_le_iff, ih, List.forall_mem_cons]; tauto

theorem amax_eq (v : Input) (m b : ℕ) : v.amax m b = Pulsed.absMax v.size (v.sample m b) := by
  have h0 := Pulsed.absMax_nonneg v.size (v.sample m b)
  refine le_antisymm ?_ ?_
  · rw [Input.amax, foldr_max_le]
    refine ⟨h0, ?_⟩
    intro y hy
    obtain ⟨j, hj, rfl⟩ := List.mem_map.1 hy
    exact le_absMax _ (List.mem_range.1 hj)
  · have h := (foldr_max_le _ (v.amax m b)).1 le_rfl
    rcases (absMax_foldl (v.sample m b) (List.range v.size) 0).2.2 with h' | ⟨j, hj, h'⟩
    · rw [Pulsed.absMax, h']; exact h.1
    · rw [Pulsed.absMax, h']; exact h.2 _ (List.mem_map.2 ⟨j, hj, rfl⟩)

theorem initialize_um (u : UpPar) (h : u.initialize.ublm = true) : u.initialize.um = true := by
  simp only [UpPar.initialize] at *; simp [h]

theorem calc_cases (u : UpPar) {lr g : ℝ} (hlr : 0 < lr) :
    u.calculateBlAB lr g = .ok ⟨u.desiredBL, √(lr / (g * u.desiredBL)), √(lr / (g * u.desiredBL))⟩ ∧
      (u.fixedBL = true ∨ u.ublm = true ∨ lr ≤ g * u.desiredBL) ∨
    u.calculateBlAB lr g = .ok ⟨max ⌈lr / g⌉ 1, 1, 1⟩ ∧ u.fixedBL = false ∧ u.ublm = false ∧ g * u.desiredBL < lr := by
  unfold UpPar.calculateBlAB
  rw [if_neg (not_lt.2 hlr.le), if_neg hlr.ne']
  by_cases h : (u.fixedBL || u.ublm) = true
  · rw [if_pos h]
    left; refine ⟨rfl, ?_⟩
    rw [Bool.or_eq_true] at h; tauto
  · rw [if_neg h]
    rw [Bool.or_eq_true, not_or, Bool.not_eq_true, Bool.not_eq_true] at h
    by_cases h2 : g * u.desiredBL < lr
    · rw [if_pos h2]; right; exact ⟨rfl, h.1, h.2, h2⟩
    · rw [if_neg h2]; left; exact ⟨rfl, Or.inr (Or.inr (not_lt.1 h2))⟩

theorem div_sqrt (t x d : ℝ) : t / √(x / d) = t * √(d / x) := by
  rw [div_eq_mul_inv, ← Real.sqrt_inv, inv_div]

theorem batchIdx_pos (v : Input) {m b j : ℕ} (hb : b < m) (hj : j < v.size) :
    Gpu.getBatchIdx v.trans (v.pos m b j) v.size m = b := by
  unfold Gpu.getBatchIdx Input.pos
  cases v.trans
  · simp only [Bool.false_eq_true, if_false]
    rw [Nat.mul_comm, Nat.mul_add_div (by omega), Nat.div_eq_of_lt hj, Nat.add_zero]
  · simp only [if_true]
    rw [Nat.mul_comm, Nat.mul_add_mod, Nat.mod_eq_of_lt hb]

/-- The factors with both kinds of management, for any train length. -/
theorem factors (u : UpPar) (hum : u.ublm = true → u.um = true) (t : ℝ) (bl D : ℤ) {lr g xm dm : ℝ} (hg : 0 < g)
    (hs : 0 < u.umGradScale) (hlr : 0 < lr) (hx : 0 < xm) (hd : 0 < dm) (hbl : u.um = true → bl = D)
    (h : u.ublm = true ∨ u.um = true) :
    let k := lr * xm * (u.umGradScale * dm) / g
    let r := u.umStep (u.ublmStep ⟨bl, t, t⟩ D k lr g) D k xm (u.umGradScale * dm)
    (if u.ublm then umK u bl lr g xm dm else bl) = r.bl ∧
      scaleProb u t (if u.ublm then umK u bl lr g xm dm else bl) lr g *
        (if u.um then umScale u bl lr g xm dm else 1) = r.a ∧
      scaleProb u t (if u.ublm then umK u bl lr g xm dm else bl) lr g /
        (if u.um then umScale u bl lr g xm dm else 1) = r.b := by
  intro k r
  have hm : u.um = true := by tauto
  have hbD := hbl hm
  subst hbD
  have ek : kVal u lr g xm dm = k := by simp only [kVal, k, abs_of_pos hlr]; ring
  have hk : 0 < k := by positivity
  simp only [r, UpPar.umStep, UpPar.ublmStep, umK, umScale, scaleProb, ek, hm, if_true, if_pos hk]
  rw [mul_comm dm]
  cases hu : u.ublm
  · simp only [Bool.false_eq_true, if_false]
    refine ⟨trivial, trivial, ?_⟩
    rw [div_sqrt]
  · simp only [if_true, div_div]
    have e : (if ⌈k⌉ ≤ bl then ⌈k⌉ else bl) = (if bl < ⌈k⌉ then bl else ⌈k⌉) := by
      split_ifs <;> omega
    rw [e]
    refine ⟨rfl, rfl, ?_⟩
    rw [← div_sqrt]

/-- **C35 (GPU: as on the CPU).** For every update configuration with positive granularity, positive `um_grad_scale` and
positive learning rate, and with a fixed or managed length, no update management, or a learning rate of at most
`g * desired_bl`: in every batch, in every layout, each sample whose vectors are not entirely zero gets the number of
slots and the scales that the CPU computes for this sample alone. -/
theorem C35_gpu_as_cpu (u : UpPar) (m : ℕ) (x d : Input) (lr g : ℝ) (hg : 0 < g) (hs : 0 < u.umGradScale) (hlr : 0 < lr)
    (hreg : u.fixedBL = true ∨ u.ublm = true ∨ u.um = false ∨ lr ≤ g * u.desiredBL) :
    ∃ p, prepare u.initialize lr g m x d = .ok p ∧
      ∀ b < m, (∃ j < x.size, x.sample m b j ≠ 0) → (∃ i < d.size, d.sample m b i ≠ 0) →
        ∃ r, u.initialize.scales x.size d.size (x.sample m b) (d.sample m b) lr g = .ok r ∧
          p.slots b = r.bl ∧ p.dFactor b = r.a ∧ p.xFactor b = r.b := by
  obtain ⟨v, hv⟩ : ∃ v, v = u.initialize := ⟨_, rfl⟩
  have v2 : v.fixedBL = u.fixedBL := by rw [hv]; rfl
  have v3 : v.ublm = u.ublm := by rw [hv]; rfl
  have v4 : v.umGradScale = u.umGradScale := by rw [hv]; rfl
  have v5 : v.um = (u.um || u.ublm) := by rw [hv]; rfl
  have v1 : v.desiredBL = u.desiredBL := by rw [hv]; rfl
  have hvum : v.ublm = true → v.um = true := by rw [v3, v5]; intro h; simp [h]
  rw [← hv]
  obtain ⟨bl, t, hc, hbl⟩ : ∃ bl t, v.calculateBlAB lr g = .ok ⟨bl, t, t⟩ ∧ (v.um = true → bl = v.desiredBL) := by
    rcases calc_cases v (g := g) hlr with ⟨h, _⟩ | ⟨h, h1, h2, h3⟩
    · exact ⟨_, _, h, fun _ => rfl⟩
    · refine ⟨_, _, h, ?_⟩
      intro hm
      rw [v2] at h1; rw [v3] at h2; rw [v1] at h3; rw [v5, h2, Bool.or_false] at hm
      rcases hreg with h | h | h | h
      · rw [h1] at h; simp at h
      · rw [h2] at h; simp at h
      · rw [hm] at h; simp at h
      · linarith
  refine ⟨_, by rw [prepare, hc], ?_⟩
  rintro b hb ⟨j, hj, hxj⟩ ⟨i, hi, hdi⟩
  have hX := absMax_pos hj hxj
  have hD := absMax_pos hi hdi
  rw [UpPar.scales]
  by_cases h : (v.ublm || v.um) = true
  · rw [if_pos h, UpPar.performUM, hc]
    have hf := factors v hvum t bl v.desiredBL hg (v4 ▸ hs) hlr hX hD hbl (by rwa [Bool.or_eq_true] at h)
    refine ⟨v.umStep (v.ublmStep ⟨bl, t, t⟩ v.desiredBL (lr * Pulsed.absMax x.size (x.sample m b) *
      (v.umGradScale * Pulsed.absMax d.size (d.sample m b)) / g) lr g) v.desiredBL
      (lr * Pulsed.absMax x.size (x.sample m b) * (v.umGradScale * Pulsed.absMax d.size (d.sample m b)) / g)
      (Pulsed.absMax x.size (x.sample m b)) (v.umGradScale * Pulsed.absMax d.size (d.sample m b)), ?_, ?_⟩
    rotate_left
    · simp only [amax_eq]; exact hf
    · show (if 0 < lr then _ else _) = _
      rw [if_pos hlr]
      show (if _ then _ else _) = _
      rw [if_neg (by push Not; exact ⟨hD.ne', hX.ne'⟩)]
      show (if _ then _ else _) = _
      rw [if_pos h]
      rfl
  · rw [if_neg h, hc]
    rw [Bool.or_eq_true, not_or, Bool.not_eq_true, Bool.not_eq_true] at h
    refine ⟨_, rfl, ?_⟩
    simp [h.1, h.2, scaleProb]

end Aihw.GpuPulse
