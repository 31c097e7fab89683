import Verif.Inference.Converter
import Mathlib.Tactic.Positivity

/-!
# Conductance converters: properties C20, C21, C22
-/
namespace Aihw.Inference

variable {K : Type} [Field K] [LinearOrder K] [IsStrictOrderedRing K]

/-! ## Lemmas -/

theorem zeroClip_pos : (0 : K) < zeroClip := by unfold zeroClip; positivity

theorem abs_le_amaxK {w : List K} {x : K} (h : x ∈ w) : |x| ≤ amaxK w := by
  unfold amaxK
  induction w with
  | nil => simp at h
  | cons a w ih =>
    simp only [List.map_cons, List.foldr_cons]
    rcases List.mem_cons.1 h with rfl | h
    · exact le_max_left _ _
    · exact (ih h).trans (le_max_right _ _)

theorem amaxK_nonneg (w : List K) : 0 ≤ amaxK w := by
  unfold amaxK
  induction w with
  | nil => simp
  | cons a w ih => simp only [List.map_cons, List.foldr_cons]; exact le_max_of_le_right ih

theorem denom_pos (w : List K) : 0 < max (amaxK w) zeroClip := lt_max_of_lt_right zeroClip_pos

/-- `|x| * (t / max(amax, clip)) ≤ t`. -/
theorem scaled_abs_le {w : List K} {x t : K} (h : x ∈ w) (ht : 0 ≤ t) :
    |x * (t / max (amaxK w) zeroClip)| ≤ t := by
  have hd := denom_pos w
  rw [abs_mul, abs_of_nonneg (div_nonneg ht hd.le), mul_div_assoc', div_le_iff₀ hd, mul_comm t]
  exact mul_le_mul_of_nonneg_right ((abs_le_amaxK h).trans (le_max_left _ _)) ht

theorem clampK_of_mem {lo hi x : K} (h1 : lo ≤ x) (h2 : x ≤ hi) : clampK lo hi x = x := by
  unfold clampK; rw [max_eq_left h1, min_eq_left h2]

theorem clampK_low {lo hi x : K} (h1 : x ≤ lo) (h : lo ≤ hi) : clampK lo hi x = lo := by
  unfold clampK; rw [max_eq_right h1, min_eq_left h]

theorem clampK_high {lo hi x : K} (h1 : hi ≤ x) : clampK lo hi x = hi := by
  unfold clampK; rw [min_eq_right (h1.trans (le_max_left _ _))]

theorem clampK_range {lo hi : K} (x : K) (h : lo ≤ hi) : lo ≤ clampK lo hi x ∧ clampK lo hi x ≤ hi :=
  ⟨le_min (le_max_right _ _) h, min_le_right _ _⟩

theorem checkRange_ok {gMax gMin : K} (h : checkRange gMax gMin = .ok ()) : 0 ≤ gMin ∧ gMin < gMax := by
  unfold checkRange at h
  by_cases h1 : gMax < 0
  · simp [h1] at h
  · by_cases h2 : gMin < 0
    · simp [h1, h2] at h
    · by_cases h3 : gMin ≥ gMax
      · simp [h1, h2, h3] at h
      · exact ⟨not_lt.1 h2, not_le.1 h3⟩

/-! ## C20 -/

/-- The constructor accepts exactly `0 ≤ g_min < g_max`. -/
theorem checkRange_iff (gMax gMin : K) : checkRange gMax gMin = .ok () ↔ 0 ≤ gMin ∧ gMin < gMax := by
  refine ⟨checkRange_ok, fun ⟨h1, h2⟩ => ?_⟩
  unfold checkRange
  rw [if_neg (not_lt.2 (h1.trans h2.le)), if_neg (not_lt.2 h1), if_neg (not_le.2 h2)]

theorem zipWith_map_self {α β γ δ : Type} (f : α → β) (g : α → γ) (h : β → γ → δ) (l : List α) :
    List.zipWith h (l.map f) (l.map g) = l.map fun x => h (f x) (g x) := by
  induction l with
  | nil => rfl
  | cons a l ih => simp [ih]

/-- **C20**. For every accepted range and every non-empty weight tensor the single-pair converter yields two
conductance tensors of the shape of the weights, all conductances in `[g_min, g_max]`, in every pair at least one device at
`g_min`, a weight of maximal magnitude at `g_max` (magnitudes above the zero clip), and converting back returns the weights. -/
theorem C20_single_pair (gMax gMin : K) (hr : checkRange gMax gMin = .ok ()) (w : List K) (hw : w ≠ []) :
    ∃ gp gm ratio, singleTo gMax gMin w = .ok ([gp, gm], ratio) ∧
      gp.length = w.length ∧ gm.length = w.length ∧
      (∀ g ∈ gp, gMin ≤ g ∧ g ≤ gMax) ∧ (∀ g ∈ gm, gMin ≤ g ∧ g ≤ gMax) ∧
      (∀ i, (h : i < w.length) → (h1 : i < gp.length) → (h2 : i < gm.length) →
        (0 ≤ w[i] → gm[i] = gMin) ∧ (w[i] ≤ 0 → gp[i] = gMin) ∧
        (zeroClip ≤ |w[i]| → (∀ x ∈ w, |x| ≤ |w[i]|) → max gp[i] gm[i] = gMax)) ∧
      singleBack gMin [gp, gm] (some ratio) = .ok w := by
  obtain ⟨h0, h1⟩ := checkRange_ok hr
  have hd := denom_pos w
  have hD : 0 < gMax - gMin := sub_pos.2 h1
  set r := (gMax - gMin) / max (amaxK w) zeroClip with hrdef
  have hr0 : 0 < r := div_pos hD hd
  have hM : 0 ≤ gMax := h0.trans h1.le
  have hb : ∀ x ∈ w, |x * r| ≤ gMax - gMin := fun x hx => scaled_abs_le hx hD.le
  have hc : ∀ y : K, |y| ≤ gMax - gMin → clampK 0 gMax y = max y 0 := by
    intro y hy
    unfold clampK
    have := (le_abs_self y).trans hy
    exact min_eq_left (max_le (by linarith) hM)
  refine ⟨(w.map (· * r)).map fun x => clampK 0 gMax x + gMin, (w.map (· * r)).map fun x => clampK 0 gMax (-x) + gMin, r,
    ?_, by simp, by simp, ?_, ?_, ?_, ?_⟩
  · unfold singleTo
    rw [if_neg hw]
  · intro g hg
    simp only [List.mem_map, exists_exists_and_eq_and] at hg
    obtain ⟨x, hx, rfl⟩ := hg
    rw [hc _ (hb x hx)]
    have := (le_abs_self _).trans (hb x hx)
    exact ⟨by linarith [le_max_right (x * r) 0], by
      have : max (x * r) 0 ≤ gMax - gMin := max_le this hD.le
      linarith⟩
  · intro g hg
    simp only [List.mem_map, exists_exists_and_eq_and] at hg
    obtain ⟨x, hx, rfl⟩ := hg
    have hb' := hb x hx
    rw [← abs_neg] at hb'
    rw [hc _ hb']
    have := (le_abs_self _).trans hb'
    exact ⟨by linarith [le_max_right (-(x * r)) 0], by
      have : max (-(x * r)) 0 ≤ gMax - gMin := max_le this hD.le
      linarith⟩
  · intro i h _ _
    have hx := hb w[i] (List.getElem_mem h)
    have hx' := hx
    rw [← abs_neg] at hx'
    simp only [List.getElem_map]
    rw [hc _ hx, hc _ hx']
    refine ⟨fun hp => ?_, fun hn => ?_, fun hz hmax => ?_⟩
    · rw [max_eq_right (by linarith [mul_nonneg hp hr0.le]), zero_add]
    · rw [max_eq_right (mul_nonpos_of_nonpos_of_nonneg hn hr0.le), zero_add]
    · have hA : amaxK w = |w[i]| := by
        apply le_antisymm _ (abs_le_amaxK (List.getElem_mem h))
        have : ∀ l : List K, (∀ x ∈ l, |x| ≤ |w[i]|) → amaxK l ≤ |w[i]| := by
          intro l
          induction l with
          | nil => intro _; simp [amaxK]
          | cons a l ih =>
            intro hl
            have e : amaxK (a :: l) = max |a| (amaxK l) := rfl
            rw [e]
            exact max_le (hl a (by simp)) (ih fun x hx => hl x (by simp [hx]))
        exact this w hmax
      have hpos : 0 < |w[i]| := zeroClip_pos.trans_le hz
      have hr' : r = (gMax - gMin) / |w[i]| := by rw [hrdef, hA, max_eq_left hz]
      have hval : |w[i] * r| = gMax - gMin := by
        rw [abs_mul, abs_of_pos hr0, hr', mul_div_cancel₀ _ hpos.ne']
      rw [max_add_add_right]
      have : max (max (w[i] * r) 0) (max (-(w[i] * r)) 0) = |w[i] * r| := by
        rw [max_max_max_comm, max_self]
        exact max_eq_left (abs_nonneg _)
      rw [this, hval]; ring
  · simp only [singleBack, hr0.ne', if_false, List.map_map]
    rw [zipWith_map_self]
    congr 1
    conv_rhs => rw [← List.map_id w]
    apply List.map_congr_left
    intro x hx
    have hx1 := hb x hx
    have hx2 := hx1
    rw [← abs_neg] at hx2
    simp only [Function.comp_apply, id_eq]
    rw [hc _ hx1, hc _ hx2]
    have : max (x * r) 0 - max (-(x * r)) 0 = x * r := by
      rcases le_total 0 (x * r) with h | h
      · rw [max_eq_left h, max_eq_right (by linarith)]; ring
      · rw [max_eq_right h, max_eq_left (by linarith)]; ring
    rw [show max (x * r) 0 + gMin - gMin - (max (-(x * r)) 0 + gMin - gMin) = x * r by linarith]
    exact mul_div_cancel_right₀ x hr0.ne'

/-- **C20** (malformed arguments). Any number of tensors other than two, or missing parameters, raise `ValueError`. -/
theorem C20_malformed (gMin : K) (gs : List (List K)) (ratio : Option K) (h : gs.length ≠ 2 ∨ ratio = none) :
    singleBack gMin gs ratio = .error .valueError := by
  unfold singleBack
  match gs, h with
  | [], _ => rfl
  | [_], _ => rfl
  | [_, _], h =>
    rcases h with h | h
    · simp at h
    · rw [h]
  | _ :: _ :: _ :: _, _ => rfl

example : checkRange (25 : ℚ) 1 = .ok () ∧
    (singleTo (25 : ℚ) 1 [1, -2, 0]).map (·.1) = .ok [[13, 1, 1], [1, 25, 1]] := by decide +kernel

/-! ## C21 -/

theorem foldl_max_neg_iff (fs : List K) (f : K) : fs.foldl max f < 0 ↔ ∀ x ∈ f :: fs, x < 0 := by
  induction fs generalizing f with
  | nil => simp
  | cons a fs ih =>
    rw [List.foldl_cons, ih]
    simp only [List.mem_cons, forall_eq_or_imp, max_lt_iff, and_assoc]

/-- **C21** (constructor). A factor list is accepted exactly if it is non-empty and contains some non-negative factor:
a list with *some* negative factors is accepted although documented as rejected. -/
theorem C21_accepted_iff (fs : List K) (gMax gMin : K) :
    nPairInit fs gMax gMin = .ok () ↔ (∃ f ∈ fs, 0 ≤ f) ∧ 0 ≤ gMin ∧ gMin < gMax := by
  unfold nPairInit checkF
  cases fs with
  | nil => simp [bind, Except.bind]
  | cons f fs =>
    simp only
    by_cases h : fs.foldl max f < 0
    · rw [if_pos h]
      have := (foldl_max_neg_iff fs f).1 h
      simp only [bind, Except.bind, reduceCtorEq, false_iff, not_and]
      rintro ⟨x, hx, hx0⟩
      exact absurd (this x hx) (not_lt.2 hx0)
    · rw [if_neg h]
      have h2 : ∃ x ∈ f :: fs, 0 ≤ x := by
        by_contra hc
        push Not at hc
        exact h ((foldl_max_neg_iff fs f).2 hc)
      simp only [bind, Except.bind, checkRange_iff, h2, true_and]

/-- Specification of the loop: the devices of pair `k` for a scaled weight `x`, where `lbs k` is the sum of the less
significant ranges. -/
theorem nPairLoop_length (gMax gMin : K) (wus : List K) (lb : K) (fs : List K) :
    (nPairLoop gMax gMin wus lb fs).length = 2 * fs.length := by
  induction fs generalizing lb with
  | nil => rfl
  | cons f fs ih => simp only [nPairLoop, List.length_cons, ih]; ring

theorem nPairLoop_get (gMax gMin : K) (wus : List K) (lb : K) (fs : List K) (k : Nat) (hk : k < fs.length) :
    (nPairLoop gMax gMin wus lb fs)[2 * k]? =
      some (wus.map (pairDevice gMax gMin (lb + ((fs.take k).map (· * (gMax - gMin))).sum) fs[k])) ∧
    (nPairLoop gMax gMin wus lb fs)[2 * k + 1]? =
      some (wus.map fun x => pairDevice gMax gMin (lb + ((fs.take k).map (· * (gMax - gMin))).sum) fs[k] (-x)) := by
  induction fs generalizing lb k with
  | nil => simp at hk
  | cons f fs ih =>
    cases k with
    | zero => simp [nPairLoop]
    | succ k =>
      simp only [List.length_cons, Nat.add_lt_add_iff_right] at hk
      have := ih (lb + f * (gMax - gMin)) k hk
      simp only [nPairLoop, show 2 * (k + 1) = 2 * k + 1 + 1 by ring, List.getElem?_cons_succ,
        List.take_succ_cons, List.map_cons, List.sum_cons, List.getElem_cons_succ]
      rw [this.1, this.2]
      simp only [add_assoc, and_self]

/-- One pair contributes the part of `x⁺` in its own range. -/
theorem pair_contrib {gMax gMin f lb x : K} (hf : 0 < f) (hg : gMin < gMax) :
    f * (pairDevice gMax gMin lb f x - gMin) = min (max (max x 0 - lb) 0) (f * (gMax - gMin)) := by
  unfold pairDevice
  rcases le_total (max x 0 - lb) 0 with h | h
  · rw [clampK_low _ hg.le, max_eq_right h, sub_self, mul_zero, min_eq_left (mul_nonneg hf.le (sub_nonneg.2 hg.le))]
    have : (max x 0 - lb) / f ≤ 0 := div_nonpos_of_nonpos_of_nonneg h hf.le
    linarith
  · rw [max_eq_left h]
    rcases le_total (max x 0 - lb) (f * (gMax - gMin)) with h' | h'
    · rw [min_eq_left h', clampK_of_mem]
      · field_simp; ring
      · have : 0 ≤ (max x 0 - lb) / f := div_nonneg h hf.le
        linarith
      · have : (max x 0 - lb) / f ≤ gMax - gMin := by rw [div_le_iff₀ hf, mul_comm]; exact h'
        linarith
    · rw [min_eq_right h', clampK_high]
      have : gMax - gMin ≤ (max x 0 - lb) / f := by rw [le_div_iff₀ hf, mul_comm]; exact h'
      linarith

/-- Telescoping: `min(x⁺ - lb)⁺ …` summed over consecutive ranges. -/
theorem range_split {y a b : K} (ha : 0 ≤ a) (hb : 0 ≤ b) :
    min (max y 0) a + min (max (y - a) 0) b = min (max y 0) (a + b) := by
  simp only [min_def, max_def]; split_ifs <;> linarith

theorem addPairs_loop {gMax gMin : K} (hg : gMin < gMax) (fs : List K) (hf : ∀ f ∈ fs, 0 < f) (wus acc : List K)
    (hl : acc.length = wus.length) (lb : K) :
    addPairs fs (nPairLoop gMax gMin wus lb fs) acc =
      List.zipWith (fun a x => a + (min (max (max x 0 - lb) 0) (fs.map (· * (gMax - gMin))).sum -
        min (max (max (-x) 0 - lb) 0) (fs.map (· * (gMax - gMin))).sum)) acc wus := by
  induction fs generalizing lb acc with
  | nil =>
    simp only [addPairs, List.map_nil, List.sum_nil]
    apply List.ext_getElem (by simp [hl])
    intro i h1 h2
    simp [le_max_right]
  | cons f fs ih =>
    have hf0 := hf f (by simp)
    simp only [nPairLoop, addPairs]
    rw [zipWith_map_self, ih (fun x hx => hf x (by simp [hx])) _ (by simp [hl])]
    apply List.ext_getElem (by simp [hl])
    intro i h1 h2
    simp only [List.getElem_zipWith, List.getElem_map, List.map_cons, List.sum_cons]
    have hi : i < wus.length := by
      simp only [List.length_zipWith] at h2; omega
    have e1 := pair_contrib (lb := lb) (x := wus[i]) hf0 hg
    have e2 := pair_contrib (lb := lb) (x := -wus[i]) hf0 hg
    have hS : 0 ≤ (fs.map (· * (gMax - gMin))).sum := by
      apply List.sum_nonneg
      intro x hx
      obtain ⟨y, hy, rfl⟩ := List.mem_map.1 hx
      exact mul_nonneg (hf y (by simp [hy])).le (sub_nonneg.2 hg.le)
    have hR : 0 ≤ f * (gMax - gMin) := mul_nonneg hf0.le (sub_nonneg.2 hg.le)
    have r1 := range_split (y := max wus[i] 0 - lb) hR hS
    have r2 := range_split (y := max (-wus[i]) 0 - lb) hR hS
    rw [← r1, ← r2, ← e1, ← e2, sub_sub, sub_sub]
    ring

/-- Total conductance range of a factor list. -/
theorem total_pos {gMax gMin : K} (hg : gMin < gMax) {fs : List K} (hne : fs ≠ []) (hf : ∀ f ∈ fs, 0 < f) :
    0 < (fs.map (· * (gMax - gMin))).sum := by
  have hD := sub_pos.2 hg
  cases fs with
  | nil => exact absurd rfl hne
  | cons f fs =>
    rw [List.map_cons, List.sum_cons]
    apply add_pos_of_pos_of_nonneg (mul_pos (hf f (by simp)) hD)
    apply List.sum_nonneg
    intro x hx
    obtain ⟨y, hy, rfl⟩ := List.mem_map.1 hx
    exact mul_nonneg (hf y (by simp [hy])).le hD.le

/-- **C21** (range, significance and round trip). For positive factors (any number) and every non-empty weight tensor:
there are two tensors per factor, every conductance lies in `[g_min, g_max]`, one device of each pair is at `g_min`, a device is
used only if the device of every earlier factor on its side is at `g_max`, and converting back returns the weights. -/
theorem C21_n_pairs (fs : List K) (gMax gMin : K) (hi : nPairInit fs gMax gMin = .ok ()) (hf : ∀ f ∈ fs, 0 < f)
    (w : List K) (hw : w ≠ []) :
    ∃ gs ratio, nPairTo fs gMax gMin w = .ok (gs, ratio) ∧ gs.length = 2 * fs.length ∧
      (∀ g ∈ gs, g.length = w.length ∧ ∀ x ∈ g, gMin ≤ x ∧ x ≤ gMax) ∧
      (∀ k i, k < fs.length → i < w.length →
        ((gs.getD (2 * k) []).getD i 0 = gMin ∨ (gs.getD (2 * k + 1) []).getD i 0 = gMin) ∧
        (gMin < (gs.getD (2 * k) []).getD i 0 → ∀ j < k, (gs.getD (2 * j) []).getD i 0 = gMax) ∧
        (gMin < (gs.getD (2 * k + 1) []).getD i 0 → ∀ j < k, (gs.getD (2 * j + 1) []).getD i 0 = gMax)) ∧
      nPairBack fs gs ratio = .ok w := by
  obtain ⟨⟨f0, hf0, _⟩, h0, hg⟩ := (C21_accepted_iff fs gMax gMin).1 hi
  have hne : fs ≠ [] := List.ne_nil_of_mem hf0
  have hz : (0 : K) ∉ fs := fun h => lt_irrefl _ (hf 0 h)
  have hD : 0 < gMax - gMin := sub_pos.2 hg
  have htot := total_pos hg hne hf
  have hd := denom_pos w
  set tot := (fs.map (· * (gMax - gMin))).sum with htotdef
  set r := tot / max (amaxK w) zeroClip with hrdef
  have hr0 : 0 < r := div_pos htot hd
  have hb : ∀ x ∈ w, |r * x| ≤ tot := fun x hx => by rw [mul_comm]; exact scaled_abs_le hx htot.le
  have hlb : ∀ k, 0 ≤ 0 + ((fs.take k).map (· * (gMax - gMin))).sum := by
    intro k
    rw [zero_add]
    apply List.sum_nonneg
    intro x hx
    obtain ⟨y, hy, rfl⟩ := List.mem_map.1 hx
    exact mul_nonneg (hf y (List.mem_of_mem_take hy)).le hD.le
  have hz' : ∀ (f lb x : K), 0 < f → 0 ≤ lb → x ≤ 0 → pairDevice gMax gMin lb f x = gMin := by
    intro f lb x hf hlb hx
    unfold pairDevice
    apply clampK_low _ hg.le
    rw [max_eq_right hx]
    have : (0 - lb) / f ≤ 0 := div_nonpos_of_nonpos_of_nonneg (by linarith) hf.le
    linarith
  -- a device above `g_min` means its range was reached, so an earlier range is exhausted
  have hsig : ∀ (k j : Nat) (hk : k < fs.length) (hj : j < k) (x : K),
      gMin < pairDevice gMax gMin (0 + ((fs.take k).map (· * (gMax - gMin))).sum) fs[k] x →
      pairDevice gMax gMin (0 + ((fs.take j).map (· * (gMax - gMin))).sum) (fs[j]'(hj.trans hk)) x = gMax := by
    intro k j hk hj x h
    have hfk := hf fs[k] (List.getElem_mem hk)
    have hfj := hf (fs[j]'(hj.trans hk)) (List.getElem_mem _)
    have h1 : 0 < max x 0 - (0 + ((fs.take k).map (· * (gMax - gMin))).sum) := by
      by_contra hc
      push Not at hc
      have : pairDevice gMax gMin (0 + ((fs.take k).map (· * (gMax - gMin))).sum) fs[k] x = gMin := by
        unfold pairDevice
        apply clampK_low _ hg.le
        have : (max x 0 - (0 + ((fs.take k).map (· * (gMax - gMin))).sum)) / fs[k] ≤ 0 :=
          div_nonpos_of_nonpos_of_nonneg hc hfk.le
        linarith
      exact absurd h (by rw [this]; exact lt_irrefl _)
    have h2 : ((fs.take j).map (· * (gMax - gMin))).sum + (fs[j]'(hj.trans hk)) * (gMax - gMin) ≤
        ((fs.take k).map (· * (gMax - gMin))).sum := by
      have e : (fs.take (j + 1)) = fs.take j ++ [fs[j]'(hj.trans hk)] := by
        rw [List.take_append_getElem]
      have e2 : fs.take k = fs.take (j + 1) ++ (fs.take k).drop (j + 1) := by
        conv_lhs => rw [← List.take_append_drop (j + 1) (fs.take k)]
        rw [List.take_take, min_eq_left (by omega)]
      rw [e2, e, List.map_append, List.map_append, List.sum_append, List.sum_append]
      simp only [List.map_cons, List.map_nil, List.sum_cons, List.sum_nil, add_zero]
      have : 0 ≤ (((fs.take k).drop (j + 1)).map (· * (gMax - gMin))).sum := by
        apply List.sum_nonneg
        intro y hy
        obtain ⟨z, hz, rfl⟩ := List.mem_map.1 hy
        exact mul_nonneg (hf z (List.mem_of_mem_take (List.mem_of_mem_drop hz))).le hD.le
      linarith
    unfold pairDevice
    apply clampK_high
    have : gMax - gMin ≤ (max x 0 - (0 + ((fs.take j).map (· * (gMax - gMin))).sum)) / (fs[j]'(hj.trans hk)) := by
      rw [le_div_iff₀ hfj, mul_comm]
      linarith
    linarith
  have hget : ∀ k i, (hk : k < fs.length) → (hi : i < w.length) →
      (((nPairLoop gMax gMin (w.map (r * ·)) 0 fs).getD (2 * k) []).getD i 0 =
        pairDevice gMax gMin (0 + ((fs.take k).map (· * (gMax - gMin))).sum) fs[k] (r * w[i])) ∧
      (((nPairLoop gMax gMin (w.map (r * ·)) 0 fs).getD (2 * k + 1) []).getD i 0 =
        pairDevice gMax gMin (0 + ((fs.take k).map (· * (gMax - gMin))).sum) fs[k] (-(r * w[i]))) := by
    intro k i hk hi
    obtain ⟨e1, e2⟩ := nPairLoop_get gMax gMin (w.map (r * ·)) 0 fs k hk
    simp only [List.getD_eq_getElem?_getD, e1, e2, Option.getD_some, List.getElem?_map, List.getElem?_eq_getElem hi,
      Option.map_some, and_self]
  refine ⟨nPairLoop gMax gMin (w.map (r * ·)) 0 fs, r, ?_, nPairLoop_length .., ?_, ?_, ?_⟩
  · unfold nPairTo
    rw [if_neg hw, if_neg hz]
  · have : ∀ (l : List K) (lb : K), ∀ g ∈ nPairLoop gMax gMin (w.map (r * ·)) lb l,
        g.length = w.length ∧ ∀ x ∈ g, gMin ≤ x ∧ x ≤ gMax := by
      intro l
      induction l with
      | nil => intro lb g hg; simp [nPairLoop] at hg
      | cons f l ih =>
        intro lb g hgm
        simp only [nPairLoop, List.mem_cons] at hgm
        rcases hgm with rfl | rfl | hgm
        · refine ⟨by simp, fun x hx => ?_⟩
          obtain ⟨y, _, rfl⟩ := List.mem_map.1 hx
          exact clampK_range _ hg.le
        · refine ⟨by simp, fun x hx => ?_⟩
          obtain ⟨y, _, rfl⟩ := List.mem_map.1 hx
          exact clampK_range _ hg.le
        · exact ih _ g hgm
    exact this fs 0
  · intro k i hk hi
    obtain ⟨e1, e2⟩ := hget k i hk hi
    have hfk := hf fs[k] (List.getElem_mem hk)
    rw [e1, e2]
    refine ⟨?_, ?_, ?_⟩
    · rcases le_total (r * w[i]) 0 with h | h
      · exact .inl (hz' _ _ _ hfk (hlb k) h)
      · exact .inr (hz' _ _ _ hfk (hlb k) (by linarith))
    · intro h j hj
      rw [(hget j i (hj.trans hk) hi).1]
      exact hsig k j hk hj _ h
    · intro h j hj
      rw [(hget j i (hj.trans hk) hi).2]
      exact hsig k j hk hj _ h
  · unfold nPairBack
    rw [if_neg (by rw [nPairLoop_length]; omega)]
    cases hgs : nPairLoop gMax gMin (w.map (r * ·)) 0 fs with
    | nil =>
      have := nPairLoop_length gMax gMin (w.map (r * ·)) 0 fs
      rw [hgs] at this
      have h3 : 0 < fs.length := List.length_pos_iff.2 hne
      simp at this; exact absurd this hne
    | cons g gs =>
      have hglen : g.length = w.length := by
        have := (nPairLoop_get gMax gMin (w.map (r * ·)) 0 fs 0 (List.length_pos_iff.2 hne)).1
        rw [hgs] at this
        simp only [mul_zero, List.getElem?_cons_zero, Option.some.injEq] at this
        rw [this]; simp
      simp only [hr0.ne', if_false]
      rw [← hgs, addPairs_loop hg fs hf _ _ (by simp [hglen])]
      congr 1
      apply List.ext_getElem (by simp [hglen])
      intro i h1 h2
      simp only [List.getElem_map, List.getElem_zipWith, zero_add]
      have hx := hb w[i] (List.getElem_mem h2)
      obtain ⟨hx1, hx2⟩ := abs_le.1 hx
      simp only [← htotdef, sub_zero, max_assoc, max_self]
      rw [min_eq_left (max_le hx2 htot.le), min_eq_left (max_le (by linarith) htot.le)]
      have : max (r * w[i]) 0 - max (-(r * w[i])) 0 = r * w[i] := by
        rcases le_total 0 (r * w[i]) with h | h
        · rw [max_eq_left h, max_eq_right (by linarith)]; ring
        · rw [max_eq_right h, max_eq_left (by linarith)]; ring
      rw [this]
      field_simp

/-- **C21** (zero factor). Any list containing a zero factor (accepted by the constructor if no error is raised for
other reasons) divides by zero for every tensor. -/
theorem C21_zero_factor (fs : List K) (h : 0 ∈ fs) (gMax gMin : K) (hg : 0 ≤ gMin ∧ gMin < gMax) (w : List K)
    (hw : w ≠ []) : nPairInit fs gMax gMin = .ok () ∧ nPairTo fs gMax gMin w = .error .nanInf :=
  ⟨(C21_accepted_iff ..).2 ⟨⟨0, h, le_rfl⟩, hg⟩, by unfold nPairTo; rw [if_neg hw, if_pos h]⟩

/-- **C21** (negative factors corrupt weights). The list `[3, -2, 3]` is accepted and changes weights on a round trip. -/
theorem C21_negative_factor : nPairInit [3, -2, 3] (25 : ℚ) 0 = .ok () ∧
    (do let (gs, r) ← nPairTo [3, -2, 3] (25 : ℚ) 0 [4, 2]
        nPairBack [3, -2, 3] gs r) = .ok [8, 4] := by decide +kernel

/-- **C21** (two pairs). The dual-pair converter accepts exactly the N-pair configurations with two factors. -/
theorem C21_dual (fs : List K) (gMax gMin : K) :
    dualInit fs gMax gMin = .ok () ↔ fs.length = 2 ∧ nPairInit fs gMax gMin = .ok () := by
  unfold dualInit
  by_cases h : fs.length = 2 <;> simp [h]

/-- **C21** (malformed arguments). An odd number of conductance tensors raises `ValueError`, no tensor raises `IndexError`. -/
theorem C21_malformed (fs : List K) (gs : List (List K)) (ratio : K) :
    (gs.length % 2 = 1 → nPairBack fs gs ratio = .error .valueError) ∧ nPairBack fs [] ratio = .error .indexError := by
  constructor
  · intro h
    unfold nPairBack
    rw [if_pos (by omega)]
  · rfl

example : nPairInit [1, 3] (25 : ℚ) 1 = .ok () ∧
    (nPairTo [1, 3] (25 : ℚ) 1 [4, -1, 0, 5/2]).map (·.1) =
      .ok [[25, 1, 1, 25], [1, 25, 1, 1], [25, 1, 1, 13], [1, 1, 1, 1]] := by decide +kernel

/-! ## C22: single device -/

theorem foldl_min_le (l : List K) (a : K) : (∀ x ∈ a :: l, l.foldl min a ≤ x) ∧ l.foldl min a ∈ a :: l := by
  induction l generalizing a with
  | nil => simp
  | cons b l ih =>
    obtain ⟨h1, h2⟩ := ih (min a b)
    rw [List.foldl_cons]
    refine ⟨?_, ?_⟩
    · intro x hx
      have hm := h1 (min a b) (by simp)
      rcases List.mem_cons.1 hx with rfl | hx
      · exact hm.trans (min_le_left _ _)
      · rcases List.mem_cons.1 hx with rfl | hx
        · exact hm.trans (min_le_right _ _)
        · exact h1 x (by simp [hx])
    · rcases List.mem_cons.1 h2 with h | h
      · rw [h]; rcases min_choice a b with h' | h' <;> simp [h']
      · simp [h]

theorem foldl_max_ge (l : List K) (a : K) : (∀ x ∈ a :: l, x ≤ l.foldl max a) ∧ l.foldl max a ∈ a :: l := by
  induction l generalizing a with
  | nil => simp
  | cons b l ih =>
    obtain ⟨h1, h2⟩ := ih (max a b)
    rw [List.foldl_cons]
    refine ⟨?_, ?_⟩
    · intro x hx
      have hm := h1 (max a b) (by simp)
      rcases List.mem_cons.1 hx with rfl | hx
      · exact (le_max_left _ _).trans hm
      · rcases List.mem_cons.1 hx with rfl | hx
        · exact (le_max_right _ _).trans hm
        · exact h1 x (by simp [hx])
    · rcases List.mem_cons.1 h2 with h | h
      · rw [h]; rcases max_choice a b with h' | h' <;> simp [h']
      · simp [h]

theorem minK_spec {w : List K} (hw : w ≠ []) : (∀ x ∈ w, minK w ≤ x) ∧ minK w ∈ w := by
  cases w with
  | nil => exact absurd rfl hw
  | cons a l =>
    have := foldl_min_le l a
    simpa [minK] using this

theorem maxK_spec {w : List K} (hw : w ≠ []) : (∀ x ∈ w, x ≤ maxK w) ∧ maxK w ∈ w := by
  cases w with
  | nil => exact absurd rfl hw
  | cons a l =>
    have := foldl_max_ge l a
    simpa [maxK] using this

/-- **C22** (single device). For every accepted range and every non-constant tensor all conductances lie in
`[g_min, g_max]`, the smallest weights sit at `g_min`, the largest at `g_max`, the order is kept and converting back returns
the weights. -/
theorem C22_single_device (gMax gMin : K) (hr : checkRange gMax gMin = .ok ()) (w : List K) (a b : K) (ha : a ∈ w)
    (hb : b ∈ w) (hab : a ≠ b) :
    ∃ g ratio mn, deviceTo gMax gMin w = .ok (g, ratio, mn) ∧ g.length = w.length ∧
      (∀ i, (h : i < w.length) → (h' : i < g.length) → gMin ≤ g[i] ∧ g[i] ≤ gMax ∧
        ((∀ x ∈ w, w[i] ≤ x) → g[i] = gMin) ∧ ((∀ x ∈ w, x ≤ w[i]) → g[i] = gMax) ∧
        ∀ j, (hj : j < w.length) → (hj' : j < g.length) → w[i] ≤ w[j] → g[i] ≤ g[j]) ∧
      deviceBack gMin g (some ratio) (some mn) = .ok w := by
  obtain ⟨h0, hg⟩ := checkRange_ok hr
  have hw : w ≠ [] := List.ne_nil_of_mem ha
  obtain ⟨m1, m2⟩ := minK_spec hw
  obtain ⟨M1, M2⟩ := maxK_spec hw
  have hlt : 0 < maxK w - minK w := by
    rw [sub_pos]
    by_contra hc
    push Not at hc
    exact hab (le_antisymm (((M1 a ha).trans hc).trans (m1 b hb)) (((M1 b hb).trans hc).trans (m1 a ha)))
  set r := (gMax - gMin) / (maxK w - minK w) with hrd
  have hr0 : 0 < r := div_pos (sub_pos.2 hg) hlt
  refine ⟨w.map fun x => (x - minK w) * r + gMin, r, minK w, ?_, by simp, ?_, ?_⟩
  · unfold deviceTo
    rw [if_neg hw, if_neg hlt.ne']
  · intro i h h'
    simp only [List.getElem_map]
    have hx := List.getElem_mem h
    have e : (maxK w - minK w) * r = gMax - gMin := by rw [hrd]; field_simp
    refine ⟨?_, ?_, ?_, ?_, ?_⟩
    · have := mul_nonneg (sub_nonneg.2 (m1 _ hx)) hr0.le
      linarith
    · have := mul_le_mul_of_nonneg_right (sub_le_sub_right (M1 _ hx) (minK w)) hr0.le
      linarith
    · intro hmin
      rw [le_antisymm (hmin _ m2) (m1 _ hx)]; ring
    · intro hmax
      rw [le_antisymm (M1 _ hx) (hmax _ M2), e]; ring
    · intro j hj _ hle
      have := mul_le_mul_of_nonneg_right (sub_le_sub_right hle (minK w)) hr0.le
      linarith
  · simp only [deviceBack, hr0.ne', if_false, List.map_map]
    congr 1
    conv_rhs => rw [← List.map_id w]
    apply List.map_congr_left
    intro x _
    simp only [Function.comp_apply, id_eq, add_sub_cancel_right]
    rw [mul_div_cancel_right₀ _ hr0.ne']; ring

/-- **C22** (constant tensors). A constant tensor divides by zero. -/
theorem C22_constant (gMax gMin : K) (a : K) (n : Nat) :
    deviceTo gMax gMin (List.replicate (n + 1) a) = .error .nanInf := by
  have hw : List.replicate (n + 1) a ≠ [] := by simp
  have h1 := List.eq_of_mem_replicate (minK_spec hw).2
  have h2 := List.eq_of_mem_replicate (maxK_spec hw).2
  unfold deviceTo
  rw [if_neg hw, if_pos (by rw [h1, h2, sub_self])]

example : (deviceTo (88 : ℚ) 8 [1, -3, 2]).map (·.1) = .ok [72, 8, 88] := by decide +kernel

end Aihw.Inference
