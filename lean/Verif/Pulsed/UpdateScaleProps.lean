import Verif.Pulsed.UpdateScale
import Verif.Pulsed.Props2

/-!
# C35: pulse-train length and scaling
-/
namespace Aihw.Pulsed

/-! ## Lemmas -/

theorem absMax_foldl (v : Nat → ℝ) (l : List Nat) (m : ℝ) :
    m ≤ l.foldl (fun m j => max m |v j|) m ∧
    (∀ j ∈ l, |v j| ≤ l.foldl (fun m j => max m |v j|) m) ∧
    (l.foldl (fun m j => max m |v j|) m = m ∨ ∃ j ∈ l, l.foldl (fun m j => max m |v j|) m = |v j|) := by
  induction l generalizing m with
  | nil => simp
  | cons a l ih =>
    obtain ⟨h1, h2, h3⟩ := ih (max m |v a|)
    refine ⟨(le_max_left _ _).trans h1, ?_, ?_⟩
    · intro j hj
      rcases List.mem_cons.1 hj with rfl | hj
      · exact (le_max_right _ _).trans h1
      · exact h2 j hj
    · rw [List.foldl_cons]
      rcases h3 with h3 | ⟨j, hj, h3⟩
      · rcases max_choice m |v a| with h | h
        · left; rw [h3, h]
        · right; exact ⟨a, List.mem_cons_self .., by rw [h3, h]⟩
      · exact Or.inr ⟨j, List.mem_cons_of_mem _ hj, h3⟩

theorem le_absMax {n : Nat} (v : Nat → ℝ) {j : Nat} (hj : j < n) : |v j| ≤ absMax n v :=
  (absMax_foldl v (List.range n) 0).2.1 j (List.mem_range.2 hj)

theorem absMax_nonneg (n : Nat) (v : Nat → ℝ) : 0 ≤ absMax n v :=
  (absMax_foldl v (List.range n) 0).1

theorem absMax_pos {n : Nat} {v : Nat → ℝ} {j : Nat} (hj : j < n) (h : v j ≠ 0) :
    0 < absMax n v := lt_of_lt_of_le (abs_pos.2 h) (le_absMax v hj)

theorem absMax_eq_zero {n : Nat} {v : Nat → ℝ} (h : ∀ j < n, v j = 0) : absMax n v = 0 := by
  rcases (absMax_foldl v (List.range n) 0).2.2 with h' | ⟨j, hj, h'⟩
  · exact h'
  · rw [absMax, h', h j (List.mem_range.1 hj), abs_zero]

/-- The regime in which the learning rate is met exactly: a fixed train length, managed train
length, or a learning rate that fits into the desired length. -/
def Exact (u : UpPar) (lr g : ℝ) : Prop := u.fixedBL = true ∨ u.ublm = true ∨ lr ≤ g * u.desiredBL

/-- What `calculateBlAB` followed by the UBLM step establishes. -/
theorem base_scales (u : UpPar) {lr g k : ℝ} (hD : 1 ≤ u.desiredBL) (hg : 0 < g) (hlr : 0 < lr)
    (hk : 0 < k) :
    ∃ bl t, 0 < t ∧ 1 ≤ bl ∧
      (∃ r, u.calculateBlAB lr g = .ok r ∧ u.ublmStep r u.desiredBL k lr g = ⟨bl, t, t⟩) ∧
      (Exact u lr g → bl ≤ u.desiredBL ∧ t ^ 2 * bl * g = lr) ∧
      (¬ Exact u lr g → bl = ⌈lr / g⌉ ∧ t = 1) ∧
      t ^ 2 * min k u.desiredBL * g ≤ lr := by
  have hD0 : (0 : ℝ) < u.desiredBL := by exact_mod_cast hD
  have hgD : 0 < g * u.desiredBL := mul_pos hg hD0
  have hsq : ∀ b : ℝ, 0 < b → (√(lr / (g * b))) ^ 2 * b * g = lr ∧ 0 < √(lr / (g * b)) := by
    intro b hb
    have : 0 < lr / (g * b) := div_pos hlr (mul_pos hg hb)
    refine ⟨?_, Real.sqrt_pos.2 this⟩
    rw [Real.sq_sqrt this.le]
    field_simp
  have hnl : ¬ lr < 0 := not_lt.2 hlr.le
  unfold UpPar.calculateBlAB
  rw [if_neg hnl, if_neg hlr.ne']
  by_cases hub : u.ublm = true
  · -- managed length
    have hbl : ∃ bl : ℤ, bl = (if (u.desiredBL : ℤ) < ⌈k⌉ then (u.desiredBL : ℤ) else ⌈k⌉) := ⟨_, rfl⟩
    obtain ⟨bl, hbl⟩ := hbl
    have hc : 1 ≤ ⌈k⌉ := Int.one_le_ceil_iff.2 hk
    have hbl1 : 1 ≤ bl := by rw [hbl]; split_ifs <;> omega
    have hblD : bl ≤ u.desiredBL := by rw [hbl]; split_ifs <;> omega
    have hbl0 : (0 : ℝ) < bl := by exact_mod_cast hbl1
    have hmin : min k (u.desiredBL : ℝ) ≤ bl := by
      rw [hbl]
      split_ifs
      · exact_mod_cast min_le_right _ _
      · exact (min_le_left _ _).trans (Int.le_ceil k)
    obtain ⟨h1, h2⟩ := hsq bl hbl0
    refine ⟨bl, √(lr / (g * bl)), h2, hbl1, ⟨_, if_pos (by simp [hub]), ?_⟩, ?_, ?_, ?_⟩
    · simp only [UpPar.ublmStep, hub, if_true, ← hbl]
    · intro _; exact ⟨hblD, h1⟩
    · intro h; exact absurd (Or.inr (Or.inl hub)) h
    · calc _ ≤ (√(lr / (g * bl))) ^ 2 * bl * g := by
            apply mul_le_mul_of_nonneg_right _ hg.le
            exact mul_le_mul_of_nonneg_left hmin (sq_nonneg _)
        _ = lr := h1
  · obtain ⟨h1, h2⟩ := hsq u.desiredBL hD0
    have hub' : u.ublm = false := by simpa using hub
    have hDz : (1 : ℤ) ≤ u.desiredBL := by exact_mod_cast hD
    have hle : (√(lr / (g * u.desiredBL))) ^ 2 * min k u.desiredBL * g ≤ lr := by
      calc _ ≤ (√(lr / (g * u.desiredBL))) ^ 2 * u.desiredBL * g := by
            apply mul_le_mul_of_nonneg_right _ hg.le
            exact mul_le_mul_of_nonneg_left (min_le_right _ _) (sq_nonneg _)
        _ = lr := h1
    by_cases hf : u.fixedBL = true
    · refine ⟨u.desiredBL, _, h2, hDz, ⟨_, if_pos (by simp [hf]), ?_⟩, ?_, ?_, hle⟩
      · simp [UpPar.ublmStep, hub']
      · intro _; exact ⟨le_rfl, by exact_mod_cast h1⟩
      · intro h; exact absurd (Or.inl hf) h
    · rw [if_neg (by simp [hf, hub'])]
      by_cases hbig : g * u.desiredBL < lr
      · rw [if_pos hbig]
        have hc : 1 ≤ ⌈lr / g⌉ := Int.one_le_ceil_iff.2 (div_pos hlr hg)
        refine ⟨⌈lr / g⌉, 1, one_pos, hc, ⟨_, rfl, ?_⟩, ?_, fun _ => ⟨rfl, rfl⟩, ?_⟩
        · simp [UpPar.ublmStep, hub', max_eq_left hc]
        · rintro (h | h | h)
          · exact absurd h hf
          · exact absurd h hub
          · exact absurd h (not_le.2 hbig)
        · have : min k (u.desiredBL : ℝ) * g ≤ u.desiredBL * g :=
            mul_le_mul_of_nonneg_right (min_le_right _ _) hg.le
          linarith
      · rw [if_neg hbig]
        refine ⟨u.desiredBL, _, h2, hDz, ⟨_, rfl, ?_⟩, ?_, ?_, hle⟩
        · simp [UpPar.ublmStep, hub']
        · intro _; exact ⟨le_rfl, by exact_mod_cast h1⟩
        · intro h; exact absurd (Or.inr (Or.inr (not_lt.1 hbig))) h

/-- The UM step keeps the product and bounds the scaled inputs. -/
theorem um_scales (u : UpPar) (hu : u.um = true) {lr g x d s t : ℝ} {bl : ℤ} (D : ℕ) (hD : 1 ≤ D)
    (hg : 0 < g) (hlr : 0 < lr) (hx : 0 < x) (hd : 0 < d) (hs : 0 < s) (ht : 0 < t)
    (hle : t ^ 2 * min (lr * x * (s * d) / g) D * g ≤ lr) :
    ∃ a b, u.umStep ⟨bl, t, t⟩ D (lr * x * (s * d) / g) x (s * d) = ⟨bl, a, b⟩ ∧ 0 < a ∧ 0 < b ∧
      a * b = t ^ 2 ∧ x * b ≤ 1 ∧
      (s = 1 → lr * x * d / g ≤ D → d * a ≤ 1) ∧
      (t ^ 2 * D * g = lr → s = 1 → (D : ℝ) < lr * x * d / g → d * a = lr * x * d / g / D) := by
  have hD0 : (0 : ℝ) < D := by exact_mod_cast hD
  obtain ⟨k, hk⟩ : ∃ k, k = lr * x * (s * d) / g := ⟨_, rfl⟩
  have hk0 : 0 < k := by rw [hk]; positivity
  obtain ⟨d', hd'⟩ : ∃ d', d' = (if ((D : ℤ) : ℝ) < k then s * d * (((D : ℤ) : ℝ) / k) else s * d) :=
    ⟨_, rfl⟩
  have hcast : (((D : ℤ)) : ℝ) = (D : ℝ) := by norm_cast
  rw [hcast] at hd'
  have hsd : 0 < s * d := mul_pos hs hd
  have hd'0 : 0 < d' := by rw [hd']; split_ifs <;> positivity
  have hxd : lr * (x * d') = min k D * g := by
    have e : lr * (x * (s * d)) = k * g := by rw [hk]; field_simp
    rw [hd']
    split_ifs with h
    · rw [min_eq_right h.le]
      calc _ = lr * (x * (s * d)) * (D / k) := by ring
        _ = _ := by rw [e]; field_simp
    · rw [min_eq_left (not_lt.1 h)]; exact e
  rw [← hk] at hle
  have hdx : 0 < d' / x := div_pos hd'0 hx
  have hxdv : 0 < x / d' := div_pos hx hd'0
  refine ⟨t * √(x / d'), t * √(d' / x), ?_, by positivity, by positivity, ?_, ?_, ?_, ?_⟩
  · simp only [UpPar.umStep, hu, if_true, ← hk, hcast, ← hd']
  · have : √(x / d') * √(d' / x) = 1 := by
      rw [← Real.sqrt_mul hxdv.le, div_mul_div_comm, mul_comm d' x, div_self (by positivity),
        Real.sqrt_one]
    calc _ = t ^ 2 * (√(x / d') * √(d' / x)) := by ring
      _ = _ := by rw [this, mul_one]
  · have h2 : (x * (t * √(d' / x))) ^ 2 = t ^ 2 * (x * d') := by
      rw [mul_pow, mul_pow, Real.sq_sqrt hdx.le]; field_simp
    have h3 : t ^ 2 * (x * d') ≤ 1 := by
      have : lr * (t ^ 2 * (x * d')) ≤ lr * 1 := by
        calc _ = t ^ 2 * (lr * (x * d')) := by ring
          _ = t ^ 2 * min k D * g := by rw [hxd]; ring
          _ ≤ lr := hle
          _ = lr * 1 := by ring
      exact le_of_mul_le_mul_left this hlr
    rw [← h2] at h3
    exact (sq_le_one_iff₀ (by positivity)).1 h3
  · intro h1 hkD
    have hk' : k = lr * x * d / g := by rw [hk, h1, one_mul]
    have hdd : d' = d := by rw [hd', if_neg (not_lt.2 (hk' ▸ hkD)), h1, one_mul]
    have h2 : (d * (t * √(x / d'))) ^ 2 = t ^ 2 * (x * d') := by
      rw [mul_pow, mul_pow, Real.sq_sqrt hxdv.le, hdd]; field_simp
    have h3 : t ^ 2 * (x * d') ≤ 1 := by
      have : lr * (t ^ 2 * (x * d')) ≤ lr * 1 := by
        calc _ = t ^ 2 * (lr * (x * d')) := by ring
          _ = t ^ 2 * min k D * g := by rw [hxd]; ring
          _ ≤ lr := hle
          _ = lr * 1 := by ring
      exact le_of_mul_le_mul_left this hlr
    rw [← h2] at h3
    exact (sq_le_one_iff₀ (by positivity)).1 h3
  · intro hex h1 hkD
    have hk' : k = lr * x * d / g := by rw [hk, h1, one_mul]
    rw [← hk'] at hkD ⊢
    have hdd : d' = d * (D / k) := by rw [hd', if_pos hkD, h1, one_mul]
    have h2 : (d * (t * √(x / d'))) ^ 2 = (k / D) ^ 2 := by
      rw [mul_pow, mul_pow, Real.sq_sqrt hxdv.le, hdd]
      have e : lr * (x * d) = k * g := by rw [hk']; field_simp
      have e2 : t ^ 2 * (x * d) * D = k := by
        have : lr * (t ^ 2 * (x * d) * D) = lr * k := by
          calc _ = t ^ 2 * D * (lr * (x * d)) := by ring
            _ = (t ^ 2 * D * g) * k := by rw [e]; ring
            _ = _ := by rw [hex]
        exact mul_left_cancel₀ hlr.ne' this
      calc d ^ 2 * (t ^ 2 * (x / (d * (D / k)))) = (t ^ 2 * (x * d) * D) * k / D ^ 2 := by
            field_simp
        _ = (k / D) ^ 2 := by rw [e2]; ring
    have := (sq_eq_sq₀ (by positivity) (by positivity)).1 h2
    exact this

/-! ## Properties -/

/-- **C35 (train length and product of the scales).**  For every update configuration with
`desired_bl ≥ 1`, positive granularity `g`, positive `um_grad_scale`, positive learning rate and
input vectors that are not entirely zero: the update has at least one slot; with a fixed or managed
length, or a learning rate of at most `g * desired_bl`, it has at most `desired_bl` slots and the
scales satisfy `A * B * BL * g = lr` exactly; otherwise `BL = ⌈lr / g⌉` and
`lr ≤ A * B * BL * g < lr + g`. -/
theorem C35_length_and_product (u : UpPar) (X D : Nat) (x d : Nat → ℝ) (lr g : ℝ)
    (hD : 1 ≤ u.desiredBL) (hg : 0 < g) (hs : 0 < u.umGradScale) (hlr : 0 < lr)
    (hx : ∃ j < X, x j ≠ 0) (hd : ∃ i < D, d i ≠ 0) :
    ∃ r, u.initialize.scales X D x d lr g = .ok r ∧ 1 ≤ r.bl ∧ 0 < r.a ∧ 0 < r.b ∧
      (u.fixedBL = true ∨ u.ublm = true ∨ lr ≤ g * u.desiredBL →
        r.bl ≤ u.desiredBL ∧ r.a * r.b * r.bl * g = lr) ∧
      (u.fixedBL = false → u.ublm = false → g * u.desiredBL < lr →
        r.bl = ⌈lr / g⌉ ∧ lr ≤ r.a * r.b * r.bl * g ∧ r.a * r.b * r.bl * g < lr + g) ∧
      (u.um = true ∨ u.ublm = true →
        (∀ j < X, |x j| * r.b ≤ 1) ∧
        (u.umGradScale = 1 → lr * absMax X x * absMax D d ≤ g * u.desiredBL →
          ∀ i < D, |d i| * r.a ≤ 1) ∧
        (u.umGradScale = 1 → (u.fixedBL = true ∨ u.ublm = true) →
          g * u.desiredBL < lr * absMax X x * absMax D d →
          ∀ i < D, |d i| * r.a = |d i| / absMax D d *
            (lr * absMax X x * absMax D d / g / u.desiredBL))) := by
  obtain ⟨j0, hj0, hxj⟩ := hx
  obtain ⟨i0, hi0, hdi⟩ := hd
  have hX := absMax_pos hj0 hxj
  have hDm := absMax_pos hi0 hdi
  have hceil : lr ≤ (⌈lr / g⌉ : ℝ) * g ∧ (⌈lr / g⌉ : ℝ) * g < lr + g := by
    constructor
    · rw [← div_le_iff₀ hg]; exact Int.le_ceil _
    · have := Int.ceil_lt_add_one (lr / g)
      calc _ < (lr / g + 1) * g := mul_lt_mul_of_pos_right this hg
        _ = lr + g := by field_simp
  obtain ⟨v, hv⟩ : ∃ v, v = u.initialize := ⟨_, rfl⟩
  have v1 : v.desiredBL = u.desiredBL := by rw [hv]; rfl
  have v2 : v.fixedBL = u.fixedBL := by rw [hv]; rfl
  have v3 : v.ublm = u.ublm := by rw [hv]; rfl
  have v4 : v.umGradScale = u.umGradScale := by rw [hv]; rfl
  have v5 : v.um = (u.um || u.ublm) := by rw [hv]; rfl
  rw [← hv]
  have hexE : (u.fixedBL = true ∨ u.ublm = true ∨ lr ≤ g * u.desiredBL) ↔ Exact v lr g := by
    unfold Exact; rw [v1, v2, v3]
  have hk0 : 0 < lr * absMax X x * (u.umGradScale * absMax D d) / g := by positivity
  obtain ⟨bl, t, ht, hbl, ⟨r0, hr0, hu⟩, hex, hnex, hle⟩ :=
    base_scales v (by rw [v1]; exact hD) hg hlr hk0
  by_cases hum : v.um = true
  · obtain ⟨a, b, hab, ha, hb, hprod, hxb, hda, hclip⟩ := um_scales v hum (bl := bl) u.desiredBL hD hg
      hlr hX hDm hs ht (by rw [← v1]; exact hle)
    refine ⟨⟨bl, a, b⟩, ?_, hbl, ha, hb, ?_, ?_, ?_⟩
    · have hk' : v.umStep (v.ublmStep r0 v.desiredBL
          (lr * absMax X x * (v.umGradScale * absMax D d) / g) lr g) v.desiredBL
          (lr * absMax X x * (v.umGradScale * absMax D d) / g) (absMax X x)
          (v.umGradScale * absMax D d) = ⟨bl, a, b⟩ := by
        rw [v4, hu, v1]; exact hab
      simp only [UpPar.scales, UpPar.performUM, hum, Bool.or_true, if_true, hr0, hlr, bind,
        Except.bind, hDm.ne', hX.ne', or_self, if_false, pure, Except.pure, hk']
    · intro h
      have := hex (hexE.1 h)
      rw [v1] at this
      refine ⟨this.1, ?_⟩
      show a * b * bl * g = lr
      rw [hprod]; exact this.2
    · intro h1 h2 h3
      have := hnex (fun h => by
        rcases hexE.2 h with h | h | h
        · rw [h1] at h; cases h
        · rw [h2] at h; cases h
        · exact absurd h (not_le.2 h3))
      refine ⟨this.1, ?_⟩
      show lr ≤ a * b * bl * g ∧ a * b * bl * g < lr + g
      rw [hprod, this.2, this.1]
      simpa using hceil
    · intro _
      refine ⟨?_, ?_, ?_⟩
      · intro j hj
        exact (mul_le_mul_of_nonneg_right (le_absMax x hj) hb.le).trans hxb
      · intro h1 h2 i hi
        refine (mul_le_mul_of_nonneg_right (le_absMax d hi) ha.le).trans (hda h1 ?_)
        rw [div_le_iff₀ hg, mul_comm (_ : ℝ) g]; exact h2
      · intro h1 h2 h3 i hi
        have hkD : (u.desiredBL : ℝ) < lr * absMax X x * absMax D d / g := by
          rw [lt_div_iff₀ hg, mul_comm (_ : ℝ) g]; exact h3
        have hblD : t ^ 2 * u.desiredBL * g = lr := by
          have e := hex (hexE.1 (h2.elim Or.inl (fun h => Or.inr (Or.inl h))))
          -- the length is the desired one in this regime
          have hb' : bl = u.desiredBL := by
            by_cases hub : v.ublm = true
            · have hu' := hu
              simp only [UpPar.ublmStep, hub, if_true, BLAB.mk.injEq] at hu'
              have h4 := hu'.1
              rw [v1] at h4
              rw [h1, one_mul] at h4
              have h5 : (u.desiredBL : ℤ) < ⌈lr * absMax X x * absMax D d / g⌉ :=
                Int.lt_ceil.2 (by exact_mod_cast hkD)
              rw [if_pos h5] at h4
              exact h4.symm
            · have hub' : v.ublm = false := by simpa using hub
              have hf : v.fixedBL = true := by
                rcases h2 with h | h
                · rw [v2]; exact h
                · rw [v3] at hub; exact absurd h hub
              have hr := hr0
              unfold UpPar.calculateBlAB at hr
              rw [if_neg (not_lt.2 hlr.le), if_neg hlr.ne', if_pos (by simp [hf])] at hr
              have hr1 : r0.bl = v.desiredBL := by
                have := Except.ok.inj hr; rw [← this]
              have hu' := hu
              simp only [UpPar.ublmStep, hub', Bool.false_eq_true, if_false] at hu'
              rw [hu', v1] at hr1
              exact hr1
          rw [hb'] at e
          exact_mod_cast e.2
        have := hclip hblD h1 hkD
        calc |d i| * a = |d i| / absMax D d * (absMax D d * a) := by field_simp
          _ = _ := by rw [this]
  · -- no management at all
    have hum' : v.um = false := by simpa using hum
    rw [v5] at hum'
    have h12 : u.um = false ∧ u.ublm = false := by simpa using hum'
    have hub : v.ublm = false := by rw [v3]; exact h12.2
    have hr : r0 = ⟨bl, t, t⟩ := by
      rw [← hu]; simp [UpPar.ublmStep, hub]
    refine ⟨⟨bl, t, t⟩, ?_, hbl, ht, ht, ?_, ?_, ?_⟩
    · simp [UpPar.scales, hum, hub, hr0, hr]
    · intro h
      have := hex (hexE.1 h)
      rw [v1] at this
      refine ⟨this.1, ?_⟩
      show t * t * bl * g = lr
      rw [← this.2]; ring
    · intro h1 h2 h3
      have := hnex (fun h => by
        rcases hexE.2 h with h | h | h
        · rw [h1] at h; cases h
        · rw [h2] at h; cases h
        · exact absurd h (not_le.2 h3))
      refine ⟨this.1, ?_⟩
      show lr ≤ t * t * bl * g ∧ t * t * bl * g < lr + g
      rw [this.2, this.1]
      simpa using hceil
    · rintro (h | h)
      · rw [h12.1] at h; cases h
      · rw [h12.2] at h; cases h

end Aihw.Pulsed
