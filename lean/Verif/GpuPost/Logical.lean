import Verif.GpuPost.Remap

/-!
# What remapping on the GPU does to the logical weights (C12)
-/
namespace Aihw.GpuPost
open Aihw.PostUpdate (RemapPars RemapType orOne)

theorem tileRemap_inv {k : TileKind} {p : RemapPars} {d x : ℕ} {w w' : Arr} {s s' : Vec}
    (h : tileRemap k p d x w s = .ok (w', s')) :
    s.length = d ∧ ∃ f, remap p d x (w, fun i => s.getD i 0) = .ok (w', f) ∧ s' = (List.range d).map f := by
  unfold tileRemap at h
  by_cases h1 : s.length ≠ d
  · rw [if_pos h1] at h; cases h
  · rw [if_neg h1] at h
    by_cases h2 : k = .pulsedOther
    · rw [if_pos h2] at h; cases h
    · rw [if_neg h2] at h
      cases hr : remap p d x (w, fun i => s.getD i 0) with
      | error e => rw [hr] at h; cases h
      | ok ws =>
        rw [hr] at h
        simp only [Except.ok.injEq, Prod.mk.injEq] at h
        exact ⟨not_not.1 h1, ws.2, by rw [← h.1], h.2.symm⟩

theorem getD_map_range {d i : ℕ} (hi : i < d) (f : ℕ → ℚ) : ((List.range d).map f).getD i 0 = f i := by
  simp [List.getD_eq_getElem?_getD, hi]

/-- One weight and its scale after a remap that succeeds. -/
theorem remap_entry {p : RemapPars} {d x : ℕ} {w w' : Arr} {g f : ℕ → ℚ} (h : remap p d x (w, g) = .ok (w', f))
    {i j : ℕ} (hi : i < d) (hj : j < x) :
    (¬(p.type = .channelwise ∧ 0 < p.maxScaleRange) → ∃ c, 0 < c ∧ w' (j * d + i) = w (j * d + i) / c ∧ f i = g i * c ∧
      c = orOne ((match p.type with
        | .layerwise => layerMax (x * d) w
        | .channelwise => rowMax d x w i) / p.remappedWmax)) ∧
    (p.type = .channelwise → 0 < p.maxScaleRange → ∃ c, c ≠ 0 ∧ w' (j * d + i) = w (j * d + i) * |g i| / c ∧ f i = c ∧
      c = rangeScale p.maxScaleRange (gpuMinScale d p.maxScaleRange p.maxScaleRef g) (rowMax d x w i) (g i)) := by
  have hx : 1 ≤ x := by omega
  unfold remap at h
  cases hty : p.type with
  | layerwise =>
    rw [hty] at h
    refine ⟨fun _ => ?_, fun h' => by cases h'⟩
    dsimp only at h
    by_cases hw : p.remappedWmax = 0
    · rw [if_pos hw] at h; cases h
    · rw [if_neg hw] at h
      simp only [Except.ok.injEq] at h
      have e : |layerMax (x * d) w| = layerMax (x * d) w := abs_of_nonneg (absMax_nonneg _)
      have h1 : w' = (kScale d x p.remappedWmax (layerMax (x * d) w) (w, g)).1 := by rw [h]
      have h2 : f = (kScale d x p.remappedWmax (layerMax (x * d) w) (w, g)).2 := by rw [h]
      refine ⟨orOne (layerMax (x * d) w / p.remappedWmax), orOne_pos _, ?_, ?_, rfl⟩
      · rw [h1]; unfold kScale; rw [kernel_w hi hj, e]
      · rw [h2]; unfold kScale; rw [kernel_s hi hx, e]
  | channelwise =>
    rw [hty] at h
    dsimp only at h
    by_cases hr : p.maxScaleRange ≤ 0
    · rw [if_pos hr] at h
      refine ⟨fun _ => ?_, fun _ h' => absurd h' (not_lt.2 hr)⟩
      by_cases hw : p.remappedWmax = 0
      · rw [if_pos hw] at h; cases h
      · rw [if_neg hw] at h
        simp only [Except.ok.injEq] at h
        have e : |rowMax d x w i| = rowMax d x w i := abs_of_nonneg (absMax_nonneg _)
        have h1 : w' = (kRows d x p.remappedWmax (rowMax d x w) (w, g)).1 := by rw [h]
        have h2 : f = (kRows d x p.remappedWmax (rowMax d x w) (w, g)).2 := by rw [h]
        refine ⟨orOne (rowMax d x w i / p.remappedWmax), orOne_pos _, ?_, ?_, rfl⟩
        · rw [h1]; unfold kRows; rw [kernel_w hi hj, idx_mod hi, e]
        · rw [h2]; unfold kRows; rw [kernel_s hi hx, Nat.mod_eq_of_lt hi, e]
    · rw [if_neg hr] at h
      refine ⟨fun h' => absurd ⟨rfl, not_le.1 hr⟩ h', fun _ _ => ?_⟩
      by_cases hw : p.remappedWmax ≠ 1
      · rw [if_pos hw] at h; cases h
      · rw [if_neg hw] at h
        by_cases ha : (List.range d).any (fun i =>
            rangeScale p.maxScaleRange (gpuMinScale d p.maxScaleRange p.maxScaleRef g) (rowMax d x w i) (g i) = 0) = true
        · rw [if_pos ha] at h; cases h
        · rw [if_neg ha] at h
          simp only [Except.ok.injEq] at h
          have h1 : w' = (kRange d x p.maxScaleRange p.maxScaleRef (rowMax d x w) (w, g)).1 := by rw [h]
          have h2 : f = (kRange d x p.maxScaleRange p.maxScaleRef (rowMax d x w) (w, g)).2 := by rw [h]
          refine ⟨_, ?_, ?_, ?_, rfl⟩
          · intro h0
            apply ha
            rw [List.any_eq_true]
            exact ⟨i, List.mem_range.2 hi, decide_eq_true h0⟩
          · rw [h1]; unfold kRange; rw [kernel_w hi hj, idx_mod hi]
          · rw [h2]; unfold kRange; rw [kernel_s hi hx, Nat.mod_eq_of_lt hi]

/-- **C12** (GPU). Every remapping that does not fail - layerwise, channelwise, and channelwise with a bounded range for
rows whose scale is not negative - leaves the logical weights (analog weight times scale) unchanged. With a bounded range
a row whose scale is negative changes its sign: the exception, on the GPU only. -/
theorem C12_gpu_logical (k : TileKind) (p : RemapPars) (d x : ℕ) (w w' : Arr) (s s' : Vec)
    (h : tileRemap k p d x w s = .ok (w', s')) (i j : ℕ) (hi : i < d) (hj : j < x) :
    (¬(p.type = .channelwise ∧ 0 < p.maxScaleRange) ∨ 0 ≤ s.getD i 0 → logical d w' s' i j = logical d w s i j) ∧
    (p.type = .channelwise → 0 < p.maxScaleRange → s.getD i 0 ≤ 0 → logical d w' s' i j = -logical d w s i j) := by
  obtain ⟨hl, f, hr, rfl⟩ := tileRemap_inv h
  have he := remap_entry hr hi hj
  unfold logical
  rw [getD_map_range hi]
  have hrange : p.type = .channelwise → 0 < p.maxScaleRange →
      w' (j * d + i) * f i = w (j * d + i) * |s.getD i 0| := by
    intro h1 h2
    obtain ⟨c, hc, e1, e2, -⟩ := he.2 h1 h2
    rw [e1, e2, div_mul_cancel₀ _ hc]
  constructor
  · intro hcase
    by_cases hb : p.type = .channelwise ∧ 0 < p.maxScaleRange
    · rcases hcase with hc | hc
      · exact absurd hb hc
      · rw [hrange hb.1 hb.2, abs_of_nonneg hc]
    · obtain ⟨c, hc, e1, e2, -⟩ := he.1 hb
      rw [e1, e2]
      field_simp
  · intro h1 h2 h3
    rw [hrange h1 h2, abs_of_nonpos h3, mul_neg]

/-- **C12** (GPU, the largest analog weight). Without a bounded range and for a positive `remapped_wmax`: no analog
weight exceeds it in magnitude; layerwise, some weight has that magnitude unless all are zero; channelwise, in every row
some weight has it unless the row is zero. -/
theorem C12_gpu_maximum (k : TileKind) (p : RemapPars) (d x : ℕ) (w w' : Arr) (s s' : Vec)
    (h : tileRemap k p d x w s = .ok (w', s')) (hb : ¬(p.type = .channelwise ∧ 0 < p.maxScaleRange))
    (hw : 0 < p.remappedWmax) :
    (∀ i < d, ∀ j < x, |w' (j * d + i)| ≤ p.remappedWmax) ∧
    (p.type = .layerwise → (∃ i < d, ∃ j < x, w (j * d + i) ≠ 0) → ∃ i < d, ∃ j < x, |w' (j * d + i)| = p.remappedWmax) ∧
    (p.type = .channelwise → ∀ i < d, (∃ j < x, w (j * d + i) ≠ 0) → ∃ j < x, |w' (j * d + i)| = p.remappedWmax) := by
  obtain ⟨hl, f, hr, rfl⟩ := tileRemap_inv h
  -- scaling by the maximum `m` of a collection that contains `v`
  have hle : ∀ m v : ℚ, |v| ≤ m → |v / orOne (m / p.remappedWmax)| ≤ p.remappedWmax := by
    intro m v hv
    have hm : 0 ≤ m := (abs_nonneg v).trans hv
    rw [abs_div, abs_of_pos (orOne_pos _), div_le_iff₀ (orOne_pos _)]
    unfold orOne
    rcases hm.lt_or_eq with h0 | h0
    · rw [if_pos (div_pos h0 hw), mul_div_cancel₀ _ hw.ne']; exact hv
    · rw [if_neg (by rw [← h0]; simp), mul_one]
      exact (hv.trans h0.symm.le).trans hw.le
  have hatt : ∀ m v : ℚ, |v| = m → m ≠ 0 → |v / orOne (m / p.remappedWmax)| = p.remappedWmax := by
    intro m v hv h0
    have hm : 0 < m := lt_of_le_of_ne (hv ▸ abs_nonneg v) (Ne.symm h0)
    rw [abs_div, abs_of_pos (orOne_pos _), hv]
    unfold orOne
    rw [if_pos (div_pos hm hw)]
    field_simp
  have hmem : ∀ i < d, ∀ j < x, |w (j * d + i)| ≤ layerMax (x * d) w := by
    intro i hi j hj
    apply abs_le_absMax
    exact List.mem_map.2 ⟨_, List.mem_range.2 (by rw [mul_comm x d]; exact GpuMod.idx_lt hi hj), rfl⟩
  have hmemr : ∀ i, ∀ j < x, |w (j * d + i)| ≤ rowMax d x w i := by
    intro i j hj
    apply abs_le_absMax
    exact List.mem_map.2 ⟨j, List.mem_range.2 hj, rfl⟩
  have ent : ∀ i < d, ∀ j < x, w' (j * d + i) = w (j * d + i) / orOne ((match p.type with
        | .layerwise => layerMax (x * d) w
        | .channelwise => rowMax d x w i) / p.remappedWmax) := by
    intro i hi j hj
    obtain ⟨c, -, e, -, rfl⟩ := (remap_entry hr hi hj).1 hb
    exact e
  refine ⟨fun i hi j hj => ?_, fun hty => ?_, fun hty i hi => ?_⟩
  · rw [ent i hi j hj]
    cases p.type with
    | layerwise => exact hle _ _ (hmem i hi j hj)
    | channelwise => exact hle _ _ (hmemr i j hj)
  · rintro ⟨i, hi, j, hj, hne⟩
    have hne' : (List.range (x * d)).map w ≠ [] := by
      have := GpuMod.idx_lt hi hj
      rw [mul_comm] at this
      intro h'
      simp at h'
      omega
    obtain ⟨a, ha, e⟩ := absMax_mem hne'
    obtain ⟨q, hq, rfl⟩ := List.mem_map.1 ha
    obtain ⟨i', j', hi', hj', rfl⟩ := GpuMod.idx_of (d := d) (n := x) (by rw [mul_comm]; exact List.mem_range.1 hq)
    refine ⟨i', hi', j', hj', ?_⟩
    rw [ent i' hi' j' hj', hty]
    refine hatt _ _ e.symm ?_
    have := hmem i hi j hj
    exact (lt_of_lt_of_le (abs_pos.2 hne) this).ne'
  · rintro ⟨j, hj, hne⟩
    have hne' : ((List.range x).map fun j => w (j * d + i)) ≠ [] := by
      intro h'
      simp at h'
      omega
    obtain ⟨a, ha, e⟩ := absMax_mem hne'
    obtain ⟨j', hj', rfl⟩ := List.mem_map.1 ha
    refine ⟨j', List.mem_range.1 hj', ?_⟩
    rw [ent i hi j' (List.mem_range.1 hj'), hty]
    refine hatt _ _ e.symm ?_
    exact (lt_of_lt_of_le (abs_pos.2 hne) (hmemr i j hj)).ne'

/-- **C12** (GPU, bounded range). The scales after a channelwise remap with a bounded range are positive, and at most
the range times the reference scale: the magnitude of the smallest scale `mn` (of all scales, by value), or
`max_scale_ref` if that is larger. A row that stays below that limit has its largest weight at magnitude 1, unless it is
zero. -/
theorem C12_gpu_range (k : TileKind) (p : RemapPars) (d x : ℕ) (w w' : Arr) (s s' : Vec)
    (h : tileRemap k p d x w s = .ok (w', s')) (hty : p.type = .channelwise) (hr : 0 < p.maxScaleRange)
    (mn : ℚ) (hmn : mn ∈ s) (hmin : ∀ v ∈ s, mn ≤ v) (hlim : 0 < max |mn| p.maxScaleRef) (i : ℕ) (hi : i < d)
    (hx : 1 ≤ x) :
    0 < s'.getD i 0 ∧ s'.getD i 0 ≤ p.maxScaleRange * max |mn| p.maxScaleRef ∧
    (s'.getD i 0 < p.maxScaleRange * max |mn| p.maxScaleRef → (∃ j < x, w (j * d + i) ≠ 0) →
      (∀ j < x, |w' (j * d + i)| ≤ 1) ∧ ∃ j < x, |w' (j * d + i)| = 1) := by
  obtain ⟨hl, f, hrm, rfl⟩ := tileRemap_inv h
  rw [getD_map_range hi]
  -- the reference
  have hg : gpuMinScale d p.maxScaleRange p.maxScaleRef (fun i => s.getD i 0) = max |mn| p.maxScaleRef := by
    have hf : ((List.range d).map fun i => -s.getD i 0).foldl max (-s.getD 0 0) = -(s.foldl min (s.getD 0 0)) := by
      conv_rhs => rw [vec_eq hl]
      rw [← foldl_max_neg, List.map_map]
      congr 1
      rw [← vec_eq hl]
    have hfold : s.foldl min (s.getD 0 0) = mn := by
      apply le_antisymm
      · have : ∀ (l : Vec) (a v : ℚ), v ∈ l → l.foldl min a ≤ v := by
          have hle : ∀ (l : Vec) (a : ℚ), l.foldl min a ≤ a := by
            intro l
            induction l with
            | nil => intro a; exact le_rfl
            | cons b l ih => intro a; exact (ih _).trans (min_le_left _ _)
          intro l
          induction l with
          | nil => intro a v hv; simp at hv
          | cons b l ih =>
            intro a v hv
            rcases List.mem_cons.1 hv with rfl | hv
            · exact (hle l (min a v)).trans (min_le_right _ _)
            · exact ih _ _ hv
        exact this s _ mn hmn
      · have h0 : s.getD 0 0 ∈ s := by
          cases s with
          | nil => simp at hmn
          | cons a l => simp
        rcases foldl_min_mem s (s.getD 0 0) with e | e
        · rw [e]; exact hmin _ h0
        · exact hmin _ e
    unfold gpuMinScale
    rw [if_pos (abs_pos.2 hr.ne'), hf, hfold, abs_neg]
  have key : f i = min (|s.getD i 0| * orOne |rowMax d x w i|) (p.maxScaleRange * max |mn| p.maxScaleRef) := by
    obtain ⟨c, -, -, e2, ec⟩ := (remap_entry hrm hi (show 0 < x by omega)).2 hty hr
    rw [e2, ec, hg]
    unfold rangeScale
    dsimp only
    rw [if_pos hlim, abs_of_pos hr]
    by_cases hc : |s.getD i 0| * orOne |rowMax d x w i| / max |mn| p.maxScaleRef > p.maxScaleRange
    · rw [if_pos hc]
      rw [gt_iff_lt, lt_div_iff₀ hlim] at hc
      exact (min_eq_right hc.le).symm
    · rw [if_neg hc]
      rw [gt_iff_lt, not_lt, div_le_iff₀ hlim] at hc
      exact (min_eq_left hc).symm
  have hne0 : f i ≠ 0 := by
    obtain ⟨c, hc, -, e2, -⟩ := (remap_entry hrm hi (show 0 < x by omega)).2 hty hr
    rw [e2]; exact hc
  have hnn : 0 ≤ f i := by
    rw [key]
    exact le_min (mul_nonneg (abs_nonneg _) (orOne_pos _).le) (mul_nonneg hr.le hlim.le)
  refine ⟨lt_of_le_of_ne hnn (Ne.symm hne0), by rw [key]; exact min_le_right _ _, fun hlt hnz => ?_⟩
  have hfi : f i = |s.getD i 0| * orOne |rowMax d x w i| := by
    rw [key] at hlt ⊢
    rcases min_choice (|s.getD i 0| * orOne |rowMax d x w i|) (p.maxScaleRange * max |mn| p.maxScaleRef) with e | e
    · exact e
    · rw [e] at hlt; exact absurd hlt (lt_irrefl _)
  have hrow : 0 < rowMax d x w i := by
    obtain ⟨j, hj, hne⟩ := hnz
    exact lt_of_lt_of_le (abs_pos.2 hne) (abs_le_absMax (List.mem_map.2 ⟨j, List.mem_range.2 hj, rfl⟩))
  have hor : orOne |rowMax d x w i| = rowMax d x w i := by
    unfold orOne
    rw [abs_of_pos hrow, if_pos hrow]
  have hs : |s.getD i 0| ≠ 0 := by
    intro e
    rw [e, zero_mul] at hfi
    exact hne0 hfi
  have ent : ∀ j < x, |w' (j * d + i)| = |w (j * d + i)| / rowMax d x w i := by
    intro j hj
    obtain ⟨c, hc, e1, e2, -⟩ := (remap_entry hrm hi hj).2 hty hr
    have : c = |s.getD i 0| * rowMax d x w i := by rw [← e2, hfi, hor]
    rw [e1, this, abs_div, abs_mul, abs_mul, abs_abs, abs_of_pos hrow, mul_comm |w (j * d + i)|,
      mul_div_mul_left _ _ hs]
  constructor
  · intro j hj
    rw [ent j hj, div_le_one hrow]
    exact abs_le_absMax (List.mem_map.2 ⟨j, List.mem_range.2 hj, rfl⟩)
  · have hne' : ((List.range x).map fun j => w (j * d + i)) ≠ [] := by
      intro h'
      simp at h'
      omega
    obtain ⟨a, ha, e⟩ := absMax_mem hne'
    obtain ⟨j', hj', rfl⟩ := List.mem_map.1 ha
    refine ⟨j', List.mem_range.1 hj', ?_⟩
    rw [ent j' (List.mem_range.1 hj'), ← e]
    exact div_self hrow.ne'

/-- **C12** (GPU, what is refused): a wrong number of scales and devices without floating-point update always; with a
bounded range a `remapped_wmax` other than 1. -/
theorem C12_gpu_refused (k : TileKind) (p : RemapPars) (d x : ℕ) (w : Arr) (s : Vec) :
    (s.length ≠ d → tileRemap k p d x w s = .error .runtimeError) ∧
    (k = .pulsedOther → tileRemap k p d x w s = .error .runtimeError) ∧
    (p.type = .channelwise → 0 < p.maxScaleRange → p.remappedWmax ≠ 1 →
      tileRemap k p d x w s = .error .runtimeError) := by
  refine ⟨fun h => by simp [tileRemap, h], fun h => ?_, fun h1 h2 h3 => ?_⟩
  · unfold tileRemap
    by_cases hl : s.length ≠ d
    · rw [if_pos hl]
    · rw [if_neg hl, if_pos h]
  · unfold tileRemap
    by_cases hl : s.length ≠ d
    · rw [if_pos hl]
    · rw [if_neg hl]
      by_cases hk : k = .pulsedOther
      · rw [if_pos hk]
      · rw [if_neg hk]
        have : remap p d x (w, fun i => s.getD i 0) = .error .runtimeError := by
          unfold remap
          rw [h1]
          dsimp only
          rw [if_neg (not_le.2 h2), if_pos h3]
        rw [this]

end Aihw.GpuPost
