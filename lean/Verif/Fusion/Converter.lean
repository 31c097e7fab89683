import Verif.Fusion.Model
import Mathlib.Tactic.Ring
import Mathlib.Tactic.Linarith
import Mathlib.Tactic.FieldSimp
import Mathlib.Algebra.BigOperators.Group.List.Basic
import Mathlib.Algebra.Order.BigOperators.Group.List

/-!
# C23 — the fusion converter
-/
namespace Aihw.Fusion

/-! ## Specification -/

/-- A row all of whose entries are equal. -/
def Constant (r : Vec) : Prop := ∀ a ∈ r, ∀ b ∈ r, a = b

/-- What an exported and re-imported row must be: the row, or zeros for a constant row. -/
def Restored (r r' : Vec) : Prop :=
  (¬Constant r → r' = r) ∧ (Constant r → r' = List.replicate r.length 0)

/-! ## Lemmas -/

theorem sum_map_mul (c : ℚ) (l : Vec) : (l.map (c * ·)).sum = c * l.sum := by
  induction l with
  | nil => simp
  | cons a l ih => simp [ih, mul_add]

theorem cross_scale (c mv mw : ℚ) (v w : Vec) :
    (List.zipWith (fun a b => (a - c * mv) * (b - mw)) (v.map (c * ·)) w).sum =
      c * (List.zipWith (fun a b => (a - mv) * (b - mw)) v w).sum := by
  induction v generalizing w with
  | nil => simp
  | cons a v ih =>
    cases w with
    | nil => simp
    | cons b w =>
      simp only [List.map_cons, List.zipWith_cons_cons, List.sum_cons, ih w]
      ring

theorem slope_scale {c : ℚ} (hc : c ≠ 0) (v w : Vec) : slope (v.map (c * ·)) w = slope v w / c := by
  unfold slope
  simp only [sum_map_mul, List.length_map, List.map_map]
  have e1 : ((fun a => (a - c * v.sum / (v.length : ℚ)) * (a - c * v.sum / (v.length : ℚ))) ∘ (c * ·)) =
      fun a => (c * c) * ((a - v.sum / v.length) * (a - v.sum / v.length)) := by
    funext a; simp only [Function.comp]; ring
  have e2 : (v.map fun a => (c * c) * ((a - v.sum / v.length) * (a - v.sum / v.length))).sum =
      (c * c) * (v.map fun a => (a - v.sum / v.length) * (a - v.sum / v.length)).sum := by
    rw [← sum_map_mul, List.map_map]; rfl
  have e3 : (List.zipWith (fun a b => (a - c * v.sum / (v.length : ℚ)) * (b - w.sum / w.length))
      (v.map (c * ·)) w).sum =
      c * (List.zipWith (fun a b => (a - v.sum / v.length) * (b - w.sum / w.length)) v w).sum := by
    have : c * v.sum / (v.length : ℚ) = c * (v.sum / v.length) := by ring
    rw [this]
    exact cross_scale c _ _ v w
  rw [e1, e2, e3]
  have hcc : c * c ≠ 0 := mul_ne_zero hc hc
  by_cases h : (v.map fun a => (a - v.sum / v.length) * (a - v.sum / v.length)).sum = 0
  · rw [if_pos h, if_pos (by rw [h, mul_zero]), zero_div]
  · rw [if_neg h, if_neg (mul_ne_zero hcc h)]
    field_simp

theorem sum_sq_zero {l : Vec} {m : ℚ} (h : (l.map fun a => (a - m) * (a - m)).sum = 0) :
    ∀ a ∈ l, a = m := by
  induction l with
  | nil => simp
  | cons b l ih =>
    simp only [List.map_cons, List.sum_cons] at h
    have h1 : 0 ≤ (b - m) * (b - m) := mul_self_nonneg _
    have h2 : 0 ≤ (l.map fun a => (a - m) * (a - m)).sum := by
      apply List.sum_nonneg
      intro x hx
      obtain ⟨y, _, rfl⟩ := List.mem_map.1 hx
      exact mul_self_nonneg _
    have h3 : (b - m) * (b - m) = 0 := by linarith
    have h4 := ih (by linarith)
    intro a ha
    rcases List.mem_cons.1 ha with rfl | ha
    · have := mul_self_eq_zero.1 h3; linarith
    · exact h4 a ha

theorem constant_sq {w : Vec} :
    (w.map fun a => (a - w.sum / w.length) * (a - w.sum / w.length)).sum = 0 ↔ Constant w := by
  constructor
  · intro h a ha b hb
    rw [sum_sq_zero h a ha, sum_sq_zero h b hb]
  · intro h
    cases w with
    | nil => simp
    | cons b w =>
      have hw : (b :: w) = List.replicate (w.length + 1) b := by
        rw [List.eq_replicate_iff]
        exact ⟨by simp, fun a ha => h a ha b (List.mem_cons_self ..)⟩
      have hs : (b :: w).sum / ((b :: w).length : ℚ) = b := by
        rw [hw]
        simp only [List.sum_replicate, List.length_replicate, nsmul_eq_mul]
        have : ((w.length + 1 : Nat) : ℚ) ≠ 0 := by exact_mod_cast Nat.succ_ne_zero w.length
        field_simp
      rw [hs]
      apply List.sum_eq_zero
      intro x hx
      obtain ⟨y, hy, rfl⟩ := List.mem_map.1 hx
      rw [h y hy b (List.mem_cons_self ..)]
      ring

open Classical in
theorem slope_self (w : Vec) : slope w w = if Constant w then 0 else 1 := by
  unfold slope
  simp only
  have e : (List.zipWith (fun a b => (a - w.sum / w.length) * (b - w.sum / w.length)) w w).sum =
      (w.map fun a => (a - w.sum / w.length) * (a - w.sum / w.length)).sum := by
    rw [List.zipWith_self]
  rw [e]
  by_cases h : Constant w
  · rw [if_pos h, if_pos (constant_sq.2 h)]
  · rw [if_neg h, if_neg (fun hh => h (constant_sq.1 hh))]
    exact div_self (fun hh => h (constant_sq.1 hh))

theorem zipWith_smul_left (c : ℚ) (g w : Vec) :
    List.zipWith (fun a b => a * sgn b) (g.map (c * ·)) w =
      (List.zipWith (fun a b => a * sgn b) g w).map (c * ·) := by
  induction g generalizing w with
  | nil => simp
  | cons a g ih =>
    cases w with
    | nil => simp
    | cons b w => simp [ih, mul_assoc]

/-- A gain common to a row of conductances cancels. -/
theorem rowBack_gain {c : ℚ} (hc : c ≠ 0) (g w : Vec) : rowBack (g.map (c * ·)) w = rowBack g w := by
  unfold rowBack
  simp only [zipWith_smul_left, slope_scale hc, List.map_map]
  apply List.map_congr_left
  intro a _
  simp only [Function.comp]
  field_simp

theorem abs_mul_sgn (x : ℚ) : |x| * sgn x = x := by
  unfold sgn
  rcases lt_trichotomy x 0 with h | h | h
  · rw [if_neg (by linarith), if_pos h, abs_of_neg h]; ring
  · subst h; simp
  · rw [if_pos h, abs_of_pos h]; ring

theorem zeroClip_pos : (0 : ℚ) < zeroClip := by unfold zeroClip; norm_num

theorem ratio_pos {gMax : ℚ} (hg : 0 < gMax) (r : Vec) : 0 < gMax / max (absMax r) zeroClip :=
  div_pos hg (lt_of_lt_of_le zeroClip_pos (le_max_right _ _))

theorem rowTo_eq {gMax : ℚ} (hg : 0 < gMax) (r : Vec) :
    rowTo gMax r = (r.map (|·|)).map ((gMax / max (absMax r) zeroClip) * ·) := by
  unfold rowTo
  simp only [List.map_map]
  apply List.map_congr_left
  intro x hx
  have h1 := ratio_pos hg r
  simp only [Function.comp]
  rw [abs_mul, abs_of_pos h1, clamp_of_mem (mul_nonneg (abs_nonneg _) h1.le), mul_comm]
  have h2 : |x| ≤ max (absMax r) zeroClip := le_trans (abs_le_absMax hx) (le_max_left _ _)
  have h3 : 0 < max (absMax r) zeroClip := lt_of_lt_of_le zeroClip_pos (le_max_right _ _)
  calc |x| * (gMax / max (absMax r) zeroClip) = (|x| / max (absMax r) zeroClip) * gMax := by ring
    _ ≤ 1 * gMax := by
      apply mul_le_mul_of_nonneg_right _ hg.le
      exact (div_le_one h3).2 h2
    _ = gMax := one_mul _

theorem zip_abs_sgn (r : Vec) : List.zipWith (fun a b => a * sgn b) (r.map (|·|)) r = r := by
  rw [List.zipWith_map_left, List.zipWith_self]
  conv_rhs => rw [← List.map_id r]
  apply List.map_congr_left
  intro a _
  exact abs_mul_sgn a

theorem rowBack_abs (r : Vec) : Restored r (rowBack (r.map (|·|)) r) := by
  unfold rowBack
  simp only [zip_abs_sgn, slope_self]
  constructor
  · intro h
    rw [if_neg h]
    simp
  · intro h
    rw [if_pos h]
    simp only [mul_zero]
    exact List.map_const' ..

/-- Exporting and importing one row, with any non-zero gain in between. -/
theorem row_round_trip {gMax c : ℚ} (hg : 0 < gMax) (hc : c ≠ 0) (r : Vec) :
    Restored r (rowBack ((rowTo gMax r).map (c * ·)) r) := by
  rw [rowBack_gain hc, rowTo_eq hg, rowBack_gain (ratio_pos hg r).ne']
  exact rowBack_abs r

theorem row_round_trip_one {gMax : ℚ} (hg : 0 < gMax) (r : Vec) :
    Restored r (rowBack (rowTo gMax r) r) := by
  have := row_round_trip hg one_ne_zero r
  simpa using this

theorem rowTo_length (gMax : ℚ) (r : Vec) : (rowTo gMax r).length = r.length := by simp [rowTo]

theorem rowBack_length (g w : Vec) (h : g.length = w.length) : (rowBack g w).length = w.length := by
  simp [rowBack, h]

/-! ## C23: the converter -/

/-- The accepted range of `g_max`. -/
theorem C23_g_max (gMax : ℚ) :
    (fusionInit gMax = .ok () ↔ 10 ≤ gMax ∧ gMax ≤ 40) ∧
    (¬(10 ≤ gMax ∧ gMax ≤ 40) → fusionInit gMax = .error .argumentError) := by
  unfold fusionInit
  constructor
  · constructor
    · intro h
      split_ifs at h with hc
      push Not at hc
      exact hc
    · rintro ⟨h1, h2⟩
      rw [if_neg (by push Not; exact ⟨h1, h2⟩)]
  · intro h
    rw [if_pos]
    by_contra hc
    push Not at hc
    exact h hc

/-- All conductances are in `[0, g_max]`; in every row that is not negligible the largest weight is mapped
to `g_max`, and within a row conductances are proportional to the absolute weights. -/
theorem C23_conductances (gMax : ℚ) (hg : 0 < gMax) (w : Mat) (hw : ∀ r ∈ w, r ≠ []) :
    ∃ g : Mat, (fusionConv gMax).toG w = .ok ([g], w) ∧ g.length = w.length ∧
      ∀ (i : Nat) (r : Vec), w[i]? = some r → ∃ gr : Vec, g[i]? = some gr ∧ gr.length = r.length ∧
        (∀ x ∈ gr, 0 ≤ x ∧ x ≤ gMax) ∧
        (∃ c > 0, gr = r.map fun x => c * |x|) ∧
        ∀ x ∈ r, (∀ y ∈ r, |y| ≤ |x|) → 1 / 10000000000 ≤ |x| → gMax ∈ gr := by
  refine ⟨w.map (rowTo gMax), ?_, by simp, ?_⟩
  · simp only [fusionConv, fusionTo]
    rw [if_neg]
    simp only [List.any_eq_true, List.isEmpty_iff, not_exists, not_and]
    exact hw
  · intro i r hr
    refine ⟨rowTo gMax r, by simp [hr], rowTo_length _ _, ?_, ?_, ?_⟩
    · intro x hx
      simp only [rowTo, List.mem_map] at hx
      obtain ⟨y, _, rfl⟩ := hx
      exact ⟨le_clamp hg.le _, clamp_le _ _ _⟩
    · refine ⟨_, ratio_pos hg r, ?_⟩
      rw [rowTo_eq hg, List.map_map]
      rfl
    · intro x hx hmax hz
      rw [rowTo_eq hg, List.map_map, List.mem_map]
      refine ⟨x, hx, ?_⟩
      have h1 : absMax r = |x| := le_antisymm
        (absMax_le (abs_nonneg _) hmax) (abs_le_absMax hx)
      have h2 : max (absMax r) zeroClip = |x| := by
        rw [h1]; exact max_eq_left hz
      simp only [Function.comp, h2]
      have : |x| ≠ 0 := by
        have := zeroClip_pos; unfold zeroClip at this
        linarith
      field_simp

/-- Reading back conductances that differ from the exported ones by a gain per row (any non-zero
factor, e.g. drift of a whole row) restores every row that is not constant; constant rows become
zero. -/
theorem C23_row_gain (gMax : ℚ) (hg : 0 < gMax) (w : Mat) (gain : Nat → ℚ) (hgain : ∀ i, gain i ≠ 0) :
    ∃ w' : Mat, (fusionConv gMax).back
        [(w.map (rowTo gMax)).mapIdx fun i r => r.map (gain i * ·)] w = .ok w' ∧
      w'.length = w.length ∧
      ∀ (i : Nat) (r : Vec), w[i]? = some r → ∃ r' : Vec, w'[i]? = some r' ∧ Restored r r' := by
  refine ⟨List.zipWith rowBack ((w.map (rowTo gMax)).mapIdx fun i r => r.map (gain i * ·)) w, ?_,
    by simp, ?_⟩
  · simp only [fusionConv, fusionBack]
    rw [if_pos]
    apply List.ext_getElem
    · simp
    · intro i h1 h2
      simp [rowTo_length]
  · intro i r hr
    obtain ⟨hi, rfl⟩ := List.getElem?_eq_some_iff.1 hr
    refine ⟨_, List.getElem?_eq_some_iff.2 ⟨by simpa using hi, rfl⟩, ?_⟩
    simp only [List.getElem_zipWith, List.getElem_mapIdx, List.getElem_map]
    exact row_round_trip hg (hgain i) _

/-- Whatever the chip returns, an imported row is the measured conductances with the signs of the
exported weights, times one factor per row; in particular weights exported as zero come back as zero. -/
theorem C23_signs (gMax : ℚ) (g w w' : Mat) (h : (fusionConv gMax).back [g] w = .ok w') :
    w'.length = w.length ∧ ∀ (i : Nat) (r gr r' : Vec), w[i]? = some r → g[i]? = some gr →
      w'[i]? = some r' → ∃ k : ℚ, r' = List.zipWith (fun a b => k * (a * sgn b)) gr r := by
  simp only [fusionConv, fusionBack] at h
  split_ifs at h with hl
  cases h
  have hlen : g.length = w.length := by simpa using congrArg List.length hl
  refine ⟨by simp [hlen], ?_⟩
  intro i r gr r' h1 h2 h3
  obtain ⟨hi1, rfl⟩ := List.getElem?_eq_some_iff.1 h1
  obtain ⟨hi2, rfl⟩ := List.getElem?_eq_some_iff.1 h2
  obtain ⟨hi3, rfl⟩ := List.getElem?_eq_some_iff.1 h3
  refine ⟨slope (List.zipWith (fun a b => a * sgn b) g[i] w[i]) w[i], ?_⟩
  simp only [List.getElem_zipWith, rowBack, List.map_zipWith]
  congr 1
  funext a b
  ring

/-- A concrete export: two rows, the second constant. -/
example : (fusionConv 40).toG [[1, -2, 0], [3, 3, 3]] = .ok ([[[20, 40, 0], [40, 40, 40]]],
      [[1, -2, 0], [3, 3, 3]]) ∧
    (fusionConv 40).back [[[20, 40, 0], [40, 40, 40]]] [[1, -2, 0], [3, 3, 3]] =
      .ok [[1, -2, 0], [0, 0, 0]] := by
  constructor <;> decide +kernel

end Aihw.Fusion
