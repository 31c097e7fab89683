import Verif.PostUpdate.ModifierProps
import Mathlib.Algebra.BigOperators.Ring.Finset

/-!
# C42: reference maximum and the formulas of the modifier types
-/
namespace Aihw.PostUpdate.Modifier

/-! ## Specification -/

/-- A weight that takes part in the reference maximum: with `copy_last_column` the last column does not. -/
def Considered (p : ModPars) (w : Mat) (x : ℚ) : Prop :=
  ∃ (i j : Nat) (hi : i < w.length) (hj : j < w[i].length),
    x = w[i][j] ∧ (p.copyLastColumn = true → j + 1 ≠ w[i].length)

/-- The reference maximum: `assumed_wmax`, or (with `rel_to_actual_wmax`) the largest magnitude of the weights taking
part, or one if they are all zero. -/
def IsRefMax (p : ModPars) (w : Mat) (a : ℚ) : Prop :=
  (p.relToActualWmax = false → a = p.assumedWmax) ∧
  (p.relToActualWmax = true →
    ((∃ x, Considered p w x ∧ x ≠ 0) → (∀ x, Considered p w x → |x| ≤ a) ∧ ∃ x, Considered p w x ∧ |x| = a) ∧
    ((∀ x, Considered p w x → x = 0) → a = 1))

/-- Nearest integer, ties away from zero. -/
def Nearest (x : ℚ) (k : ℤ) : Prop := |x - k| ≤ 1 / 2 ∧ (|x - k| = 1 / 2 → |x| < |(k : ℚ)|)

/-- Grid value for `x` with step `res` relative to the maximum `a`; `u` is the uniform number of the stochastic rounding.
A resolution that is not positive means no discretization. -/
def OnGrid (p : ModPars) (a x u y : ℚ) : Prop :=
  (p.res ≤ 0 → y = x) ∧
  (0 < p.res → ∃ k : ℤ, y = k * (p.res * a) ∧
    Nearest (x / (p.res * a) + if p.stoRound then u - 1 / 2 else 0) k)

/-- Standard deviation of the polynomial types: `Σ cₖ (|x|/a)ᵏ`. -/
def polySigma (c : List ℚ) (t : ℚ) : ℚ := ∑ k ∈ Finset.range c.length, c.getD k 0 * t ^ k

/-- The documented value of a weight before dropping connections. -/
def Formula (p : ModPars) (a x gauss u y : ℚ) : Prop :=
  match p.type with
  | .none | .copy | .dropConnect => y = x
  | .discretize => OnGrid p a x u y
  | .multNormal => y = x + (if 0 < p.stdDev then x * (p.stdDev * a) * gauss else 0)
  | .addNormal => y = x + (if 0 < p.stdDev then p.stdDev * a * gauss else 0)
  | .poly => y = x + (if 0 < p.stdDev then a * p.stdDev * polySigma p.coeffs (|x| / a) * gauss else 0)
  | .progNoise =>
    if 0 < p.stdDev ∧ p.coeffs ≠ [] then
      |y| = |x + a * (p.stdDev / p.gMax) * polySigma p.coeffs (|x| / a) * gauss| ∧ (0 ≤ x → 0 ≤ y) ∧ (x < 0 → y ≤ 0)
    else y = x
  | .discretizeAddNormal => ∃ z, OnGrid p a x u z ∧ y = z + (if 0 < p.res ∨ 0 < p.stdDev then p.stdDev * a * gauss else 0)

/-! ## Lemmas -/

theorem poly_eq (c : List ℚ) (t : ℚ) : poly c t = polySigma c t := by
  induction c with
  | nil => simp [poly, polySigma]
  | cons b c ih =>
    rw [poly, ih, polySigma, polySigma, List.length_cons, Finset.sum_range_succ', Finset.mul_sum]
    simp only [List.getD_cons_succ, List.getD_cons_zero, pow_zero, mul_one]
    rw [add_comm]
    congr 1
    exact Finset.sum_congr rfl fun k _ => by ring

theorem roundC_nearest (x : ℚ) : Nearest x (roundC x) := by
  refine ⟨roundC_spec x, ?_⟩
  unfold roundC
  split_ifs with h
  · have h1 := Int.floor_le (x + 1 / 2)
    have h2 := Int.lt_floor_add_one (x + 1 / 2)
    have h0 : (0 : ℤ) ≤ ⌊x + 1 / 2⌋ := Int.floor_nonneg.2 (by linarith)
    have h0' : (0 : ℚ) ≤ ((⌊x + 1 / 2⌋ : ℤ) : ℚ) := by exact_mod_cast h0
    intro he
    rw [abs_of_nonneg h, abs_of_nonneg h0']
    rcases abs_cases (x - ((⌊x + 1 / 2⌋ : ℤ) : ℚ)) with ⟨e, _⟩ | ⟨e, _⟩ <;> linarith
  · have h1 := Int.floor_le (-x + 1 / 2)
    have h2 := Int.lt_floor_add_one (-x + 1 / 2)
    rw [not_le] at h
    have h0 : (0 : ℤ) ≤ ⌊-x + 1 / 2⌋ := Int.floor_nonneg.2 (by linarith)
    have h0' : (0 : ℚ) ≤ ((⌊-x + 1 / 2⌋ : ℤ) : ℚ) := by exact_mod_cast h0
    intro he
    push_cast at he ⊢
    rw [abs_of_neg h, abs_neg, abs_of_nonneg h0']
    rcases abs_cases (x - -((⌊-x + 1 / 2⌋ : ℤ) : ℚ)) with ⟨e, _⟩ | ⟨e, _⟩ <;> linarith

theorem Nearest.unique {x : ℚ} {k l : ℤ} (hk : Nearest x k) (hl : Nearest x l) : k = l := by
  by_contra hne
  obtain ⟨hk1, hk2⟩ := hk
  obtain ⟨hl1, hl2⟩ := hl
  rw [abs_le] at hk1 hl1
  rcases lt_or_gt_of_ne hne with h | h
  · have hq : (k : ℚ) + 1 ≤ l := by exact_mod_cast h
    have e1 : x - k = 1 / 2 := by linarith
    have e2 : x - l = -(1 / 2) := by linarith
    have a1 := hk2 (by rw [e1]; norm_num)
    have a2 := hl2 (by rw [e2]; norm_num)
    have hx1 : x = k + 1 / 2 := by linarith
    have hx2 : x = l - 1 / 2 := by linarith
    rcases le_or_gt 0 k with hk0 | hk0
    · have : (0 : ℚ) ≤ k := by exact_mod_cast hk0
      rw [abs_of_nonneg (by linarith : 0 ≤ x), abs_of_nonneg this] at a1
      linarith
    · have : (l : ℚ) ≤ 0 := by
        have : (l : ℚ) = k + 1 := by linarith
        have : l = k + 1 := by exact_mod_cast this
        have : l ≤ 0 := by omega
        exact_mod_cast this
      rw [abs_of_nonpos (by linarith : x ≤ 0), abs_of_nonpos this] at a2
      linarith
  · have hq : (l : ℚ) + 1 ≤ k := by exact_mod_cast h
    have e1 : x - l = 1 / 2 := by linarith
    have e2 : x - k = -(1 / 2) := by linarith
    have a1 := hl2 (by rw [e1]; norm_num)
    have a2 := hk2 (by rw [e2]; norm_num)
    have hx1 : x = l + 1 / 2 := by linarith
    have hx2 : x = k - 1 / 2 := by linarith
    rcases le_or_gt 0 l with hk0 | hk0
    · have : (0 : ℚ) ≤ l := by exact_mod_cast hk0
      rw [abs_of_nonneg (by linarith : 0 ≤ x), abs_of_nonneg this] at a1
      linarith
    · have : (k : ℚ) ≤ 0 := by
        have : (k : ℚ) = l + 1 := by linarith
        have : k = l + 1 := by exact_mod_cast this
        have : k ≤ 0 := by omega
        exact_mod_cast this
      rw [abs_of_nonpos (by linarith : x ≤ 0), abs_of_nonpos this] at a2
      linarith

theorem considered_iff (p : ModPars) (w : Mat) (x : ℚ) :
    Considered p w x ↔ ∃ r ∈ w, x ∈ (if p.copyLastColumn then r.dropLast else r) := by
  constructor
  · rintro ⟨i, j, hi, hj, rfl, hc⟩
    refine ⟨w[i], List.getElem_mem hi, ?_⟩
    split_ifs with h
    · have : j < w[i].dropLast.length := by
        rw [List.length_dropLast]; have := hc h; omega
      have e : w[i].dropLast[j] = w[i][j] := List.getElem_dropLast this
      rw [← e]; exact List.getElem_mem this
    · exact List.getElem_mem hj
  · rintro ⟨r, hr, hx⟩
    obtain ⟨i, hi, rfl⟩ := List.getElem_of_mem hr
    split_ifs at hx with h
    · obtain ⟨j, hj, rfl⟩ := List.getElem_of_mem hx
      have hj' := hj
      rw [List.length_dropLast] at hj'
      exact ⟨i, j, hi, by omega, List.getElem_dropLast hj, fun _ => by omega⟩
    · obtain ⟨j, hj, rfl⟩ := List.getElem_of_mem hx
      exact ⟨i, j, hi, hj, rfl, fun hc => absurd hc h⟩

theorem rowMax_spec (p : ModPars) (w : Mat) :
    let a := absMax (w.map fun r => absMax (if p.copyLastColumn then r.dropLast else r))
    (∀ x, Considered p w x → |x| ≤ a) ∧ (a ≠ 0 → ∃ x, Considered p w x ∧ |x| = a) := by
  intro a
  constructor
  · intro x hx
    obtain ⟨r, hr, hx⟩ := (considered_iff p w x).1 hx
    have h1 := abs_le_absMax hx
    have h2 := abs_le_absMax (List.mem_map.2 ⟨r, hr, rfl⟩ :
      absMax (if p.copyLastColumn then r.dropLast else r) ∈
        w.map fun r => absMax (if p.copyLastColumn then r.dropLast else r))
    rw [abs_of_nonneg (absMax_nonneg _)] at h2
    exact h1.trans h2
  · intro ha
    have hne : (w.map fun r => absMax (if p.copyLastColumn then r.dropLast else r)) ≠ [] := by
      intro h; apply ha; show absMax _ = 0; rw [h]; rfl
    obtain ⟨m, hm, em⟩ := absMax_mem hne
    obtain ⟨r, hr, rfl⟩ := List.mem_map.1 hm
    rw [abs_of_nonneg (absMax_nonneg _)] at em
    have hne2 : (if p.copyLastColumn then r.dropLast else r) ≠ [] := by
      intro h; apply ha; show absMax _ = 0; rw [em, h]; rfl
    obtain ⟨x, hx, ex⟩ := absMax_mem hne2
    exact ⟨x, (considered_iff p w x).2 ⟨r, hr, hx⟩, by rw [← ex]; exact em.symm⟩

theorem amaxOf_isRefMax (p : ModPars) (hty : p.type ≠ .copy) (w : Mat) : IsRefMax p w (amaxOf p w) := by
  obtain ⟨h1, h2⟩ := rowMax_spec p w
  refine ⟨fun h => ?_, fun h => ⟨?_, ?_⟩⟩
  · unfold amaxOf; rw [if_neg (fun hc => by rw [h] at hc; exact absurd hc.1 (by decide))]
  · rintro ⟨x, hx, hx0⟩
    have hpos : 0 < absMax (w.map fun r => absMax (if p.copyLastColumn then r.dropLast else r)) :=
      lt_of_lt_of_le (abs_pos.2 hx0) (h1 x hx)
    have e : amaxOf p w = absMax (w.map fun r => absMax (if p.copyLastColumn then r.dropLast else r)) := by
      unfold amaxOf
      rw [if_pos (⟨h, hty⟩ : p.relToActualWmax = true ∧ p.type ≠ .copy)]
      exact if_pos hpos
    rw [e]
    exact ⟨h1, h2 hpos.ne'⟩
  · intro hz
    have h0 : ¬ absMax (w.map fun r => absMax (if p.copyLastColumn then r.dropLast else r)) > 0 := by
      intro hp
      obtain ⟨x, hx, ex⟩ := h2 (ne_of_gt hp)
      rw [hz x hx, abs_zero] at ex
      rw [← ex] at hp
      exact lt_irrefl _ hp
    unfold amaxOf
    rw [if_pos (⟨h, hty⟩ : p.relToActualWmax = true ∧ p.type ≠ .copy)]
    exact if_neg h0

theorem IsRefMax.unique {p : ModPars} {w : Mat} {a b : ℚ} (ha : IsRefMax p w a) (hb : IsRefMax p w b) : a = b := by
  cases hr : p.relToActualWmax with
  | false => rw [ha.1 hr, hb.1 hr]
  | true =>
    by_cases hz : ∃ x, Considered p w x ∧ x ≠ 0
    · obtain ⟨a1, x, hx, ex⟩ := (ha.2 hr).1 hz
      obtain ⟨b1, y, hy, ey⟩ := (hb.2 hr).1 hz
      exact le_antisymm (ex ▸ b1 x hx) (ey ▸ a1 y hy)
    · push Not at hz
      rw [(ha.2 hr).2 hz, (hb.2 hr).2 hz]

theorem discretize_onGrid (p : ModPars) (a x u : ℚ) (ha : a ≠ 0) :
    OnGrid p a x u (a * discretize (x / a) p.res p.stoRound u) := by
  refine ⟨fun h => ?_, fun h => ?_⟩
  · unfold discretize; rw [if_pos h]; field_simp
  · unfold discretize
    rw [if_neg (not_le.2 h)]
    have e : x / a / p.res = x / (p.res * a) := by rw [div_div, mul_comm]
    cases p.stoRound with
    | true =>
      refine ⟨roundC (x / a / p.res + (u - 1 / 2)), by simp only [if_true]; ring, ?_⟩
      simp only [if_true]; rw [e]; exact roundC_nearest _
    | false =>
      refine ⟨roundC (x / a / p.res), by simp only [Bool.false_eq_true, if_false]; ring, ?_⟩
      simp only [Bool.false_eq_true, if_false, add_zero]; rw [e]; exact roundC_nearest _

theorem modEntry_formula (p : ModPars) (a : ℚ) (ha : 0 < a) (d : Draws) (i j : Nat) (x : ℚ) :
    Formula p a x (d.gauss i j) (d.rnd i j) (modEntry p a d i j x) := by
  unfold Formula modEntry
  cases hty : p.type <;> simp only
  case discretize =>
    split_ifs with h
    · exact discretize_onGrid p a x _ ha.ne'
    · exact ⟨fun _ => rfl, fun h' => absurd h' h⟩
  case multNormal => split_ifs <;> simp
  case addNormal => split_ifs <;> simp
  case poly =>
    by_cases hs : 0 < p.stdDev
    · rw [if_pos hs]
      by_cases hc : p.coeffs = []
      · rw [if_neg (fun h => h.2 hc), hc]; simp [polySigma]
      · rw [if_pos (⟨hs, hc⟩ : p.stdDev > 0 ∧ p.coeffs ≠ []), poly_eq]; ring
    · rw [if_neg (fun h => hs h.1), if_neg hs, add_zero]
  case progNoise =>
    by_cases h : p.stdDev > 0 ∧ p.coeffs ≠ []
    · rw [if_pos h, if_pos h, poly_eq]
      have e : x + a * (polySigma p.coeffs (|x| / a) * (p.stdDev / p.gMax)) * d.gauss i j =
          x + a * (p.stdDev / p.gMax) * polySigma p.coeffs (|x| / a) * d.gauss i j := by ring
      rw [e]
      generalize x + a * (p.stdDev / p.gMax) * polySigma p.coeffs (|x| / a) * d.gauss i j = v
      split_ifs with hx
      · exact ⟨by rw [abs_neg, abs_abs], fun h0 => absurd hx (not_lt.2 h0), fun _ => neg_nonpos.2 (abs_nonneg _)⟩
      · exact ⟨abs_abs _, fun _ => abs_nonneg _, fun h0 => absurd h0 hx⟩
    · rw [if_neg h, if_neg h]
  case discretizeAddNormal =>
    have hiff : (p.res > 0 ∨ p.stdDev * a > 0) ↔ (0 < p.res ∨ 0 < p.stdDev) := by
      rw [gt_iff_lt, gt_iff_lt, mul_pos_iff_of_pos_right ha]
    by_cases h : p.res > 0 ∨ p.stdDev * a > 0
    · rw [if_pos h, if_pos (hiff.1 h)]
      exact ⟨_, discretize_onGrid p a x _ ha.ne', rfl⟩
    · rw [if_neg h, if_neg (fun h' => h (hiff.2 h'))]
      exact ⟨x, ⟨fun _ => rfl, fun h' => absurd (Or.inl h') h⟩, by simp⟩

/-! ## Theorems -/

/-- **C42** (reference maximum). The reference maximum of the documentation exists and is unique for all parameters and
weights; it is positive whenever it is taken from the weights. -/
theorem C42_reference_max (p : ModPars) (w : Mat) :
    ∃ a, IsRefMax p w a ∧ (∀ b, IsRefMax p w b → b = a) ∧ (p.relToActualWmax = true → 0 < a) := by
  have h : IsRefMax p w (amaxOf { p with type := .none } w) :=
    amaxOf_isRefMax { p with type := .none } (by simp) w
  refine ⟨_, h, fun b hb => hb.unique h, fun hr => ?_⟩
  by_cases hz : ∃ x, Considered p w x ∧ x ≠ 0
  · obtain ⟨x, hx, hx0⟩ := hz
    exact lt_of_lt_of_le (abs_pos.2 hx0) (((h.2 hr).1 ⟨x, hx, hx0⟩).1 x hx)
  · push Not at hz
    rw [(h.2 hr).2 hz]; norm_num

/-- **C42** (formulas). With the reference maximum `a > 0`: a weight of the restored last column is exact; a dropped weight
is zero; every other weight has the documented value of its type (grid value, multiplicative, additive, polynomial or
programming noise). -/
theorem C42_formula (p : ModPars) (d : Draws) (w : Mat) (a : ℚ) (ha : IsRefMax p w a) (hpos : 0 < a) (i j : Nat)
    (hi : i < w.length) (hj : j < w[i].length) :
    ∃ (h1 : i < (applyMod p d w).length) (h2 : j < (applyMod p d w)[i].length),
      (p.copyLastColumn = true → j + 1 = w[i].length → (applyMod p d w)[i][j] = w[i][j]) ∧
      ((p.copyLastColumn = true → j + 1 ≠ w[i].length) →
        (0 < p.pdrop → d.drop i j < p.pdrop → (applyMod p d w)[i][j] = 0) ∧
        ((0 < p.pdrop → p.pdrop ≤ d.drop i j) →
          Formula p a w[i][j] (d.gauss i j) (d.rnd i j) ((applyMod p d w)[i][j]))) := by
  obtain ⟨h1, h2, e⟩ := applyMod_entry p d w i hi j hj
  refine ⟨h1, h2, fun hc hl => by rw [e, if_pos ⟨hc, hl⟩], fun hc => ?_⟩
  rw [if_neg (fun h => hc h.1 h.2)] at e
  rw [e]
  refine ⟨fun hp hd => by unfold dropEntry; rw [if_pos hp, if_pos hd], fun hd => ?_⟩
  have e2 : dropEntry p d i j (modEntry p (amaxOf p w) d i j w[i][j]) = modEntry p (amaxOf p w) d i j w[i][j] := by
    unfold dropEntry
    split_ifs with h h'
    · exact absurd h' (not_lt.2 (hd h))
    · rfl
    · rfl
  rw [e2]
  by_cases hty : p.type = .copy
  · have : modEntry p (amaxOf p w) d i j w[i][j] = modEntry p a d i j w[i][j] := by simp [modEntry, hty]
    rw [this]; exact modEntry_formula p a hpos d i j _
  · rw [(amaxOf_isRefMax p hty w).unique ha]
    exact modEntry_formula p a hpos d i j _

/-- **C42** (grid). The grid value of a weight is unique, ties included. -/
theorem C42_grid_unique (p : ModPars) (a x u y z : ℚ) (hy : OnGrid p a x u y) (hz : OnGrid p a x u z) : y = z := by
  rcases le_or_gt p.res 0 with h | h
  · rw [hy.1 h, hz.1 h]
  · obtain ⟨k, rfl, hk⟩ := hy.2 h
    obtain ⟨l, rfl, hl⟩ := hz.2 h
    rw [hk.unique hl]

/-- The reference maximum of the torch tile: all weights take part, and zero stays zero. -/
def IsTorchMax (p : ModPars) (w : Mat) (a : ℚ) : Prop :=
  (p.relToActualWmax = false → a = p.assumedWmax) ∧
  (p.relToActualWmax = true → (∀ r ∈ w, ∀ x ∈ r, |x| ≤ a) ∧ ((∃ r ∈ w, ∃ x ∈ r, |x| = a) ∨ (a = 0)))

/-- Effective resolution: a number of states above one is inverted. -/
def torchRes (p : ModPars) : ℚ := if p.res > 1 then 1 / p.res else p.res

/-- **C42** (torch formulas). In training: multiplicative noise proportional to the weight itself, additive noise
proportional to the maximum, and the nearest multiple of `2 res a` (half to even). -/
theorem C42_torch_formula (p : ModPars) (d : Draws) (w w' : Mat) (h : torchForwardWeights p d w false = .ok w') (a : ℚ)
    (ha : IsTorchMax p w a) (i j : Nat) (hi : i < w.length) (hj : j < w[i].length) :
    ∃ (h1 : i < w'.length) (h2 : j < w'[i].length),
      (p.type = .multNormal → w'[i][j] = w[i][j] * (1 + p.stdDev * d.gauss i j)) ∧
      (p.type = .addNormal → w'[i][j] = w[i][j] + p.stdDev * a * d.gauss i j) ∧
      (p.type = .discretize → 0 < torchRes p ∧ a ≠ 0 ∧ ∃ k : ℤ, w'[i][j] = k * (2 * torchRes p * a) ∧
        |w[i][j] / (2 * torchRes p * a) + (if p.stoRound then d.rnd i j - 1 / 2 else 0) - k| ≤ 1 / 2) := by
  have hmax : (if p.relToActualWmax then absMax (w.map absMax) else p.assumedWmax) = a := by
    cases hr : p.relToActualWmax with
    | false => rw [ha.1 hr]; rfl
    | true =>
      obtain ⟨h1, h2⟩ := ha.2 hr
      simp only [if_true]
      have up : absMax (w.map absMax) ≤ a ∨ a = 0 ∧ absMax (w.map absMax) = 0 := by
        left
        have ha0 : 0 ≤ a := by
          rcases h2 with ⟨r, _, x, _, e⟩ | e
          · rw [← e]; exact abs_nonneg _
          · rw [e]
        refine absMax_le ha0 fun m hm => ?_
        obtain ⟨r, hr, rfl⟩ := List.mem_map.1 hm
        rw [abs_of_nonneg (absMax_nonneg _)]
        exact absMax_le ha0 (h1 r hr)
      have up' : absMax (w.map absMax) ≤ a := by
        rcases up with h | ⟨h, h'⟩
        · exact h
        · rw [h, h']
      refine le_antisymm up' ?_
      rcases h2 with ⟨r, hr, x, hx, e⟩ | e
      · rw [← e]
        have := abs_le_absMax (List.mem_map.2 ⟨r, hr, rfl⟩ : absMax r ∈ w.map absMax)
        rw [abs_of_nonneg (absMax_nonneg _)] at this
        exact (abs_le_absMax hx).trans this
      · rw [e]; exact absMax_nonneg _
  simp only [torchForwardWeights, Bool.false_eq_true, if_false, torchModify] at h
  rw [hmax] at h
  cases hty : p.type <;> simp only [hty] at h
  case none => cases h; exact ⟨hi, hj, by simp, by simp, by simp⟩
  case copy => cases h; exact ⟨hi, hj, by simp, by simp, by simp⟩
  case multNormal =>
    cases h
    exact ⟨by simpa using hi, by simpa using hj, fun _ => by simp; ring, by simp, by simp⟩
  case addNormal =>
    cases h
    exact ⟨by simpa using hi, by simpa using hj, by simp, fun _ => by simp, by simp⟩
  case discretize =>
    change (if torchRes p ≤ 0 then _ else if torchRes p * (2 * a) = 0 then _ else _) = _ at h
    by_cases hr : torchRes p ≤ 0
    · rw [if_pos hr] at h; cases h
    rw [if_neg hr] at h
    by_cases hs : torchRes p * (2 * a) = 0
    · rw [if_pos hs] at h; cases h
    rw [if_neg hs] at h
    cases h
    refine ⟨by simpa using hi, by simpa using hj, by simp, by simp, fun _ => ⟨not_le.1 hr, ?_, ?_⟩⟩
    · rintro rfl; exact hs (by simp)
    · simp only [List.getElem_mapIdx]
      have e : torchRes p * (2 * a) = 2 * torchRes p * a := by ring
      change ∃ k : ℤ, (roundHE (w[i][j] / (torchRes p * (2 * a)) + if p.stoRound then d.rnd i j - 1 / 2 else 0) : ℚ) *
        (torchRes p * (2 * a)) = _ ∧ _
      rw [e]
      exact ⟨_, rfl, abs_sub_roundHE _⟩
  all_goals cases h

end Aihw.PostUpdate.Modifier
