import Verif.PostUpdate.Lemmas

/-!
# C12 (post-update remapping of the inference tiles)
-/
namespace Aihw.PostUpdate
open Aihw.Periphery

/-- Calls of a history whose scale tensors fit the tile. -/
def Step.Valid (c : Cfg) : Step → Prop
  | .call k => k.Valid c
  | _ => True

/-! ## Helpers -/

theorem absMax_eq_zero {v : Vec} : absMax v = 0 ↔ ∀ x ∈ v, x = 0 := by
  constructor
  · intro h x hx
    have := abs_le_absMax hx
    rw [h] at this
    exact abs_nonpos_iff.1 this
  · intro h
    exact le_antisymm (absMax_le le_rfl fun a ha => by rw [h a ha]; simp) (absMax_nonneg v)

theorem absMax2_eq_zero {w : Mat} : absMax (w.map absMax) = 0 ↔ ∀ r ∈ w, ∀ x ∈ r, x = 0 := by
  rw [absMax_eq_zero]
  simp only [List.mem_map, forall_exists_index, and_imp, forall_apply_eq_imp_iff₂, absMax_eq_zero]

theorem abs_le_absMax2 {w : Mat} {r : Vec} (hr : r ∈ w) {x : ℚ} (hx : x ∈ r) : |x| ≤ absMax (w.map absMax) := by
  refine (abs_le_absMax hx).trans ?_
  have := abs_le_absMax (v := w.map absMax) (List.mem_map_of_mem hr)
  rwa [abs_of_nonneg (absMax_nonneg _)] at this

theorem absMax2_attained {w : Mat} (h : absMax (w.map absMax) ≠ 0) :
    ∃ r ∈ w, ∃ x ∈ r, |x| = absMax (w.map absMax) := by
  have hne : w.map absMax ≠ [] := by intro e; rw [e] at h; exact h rfl
  obtain ⟨a, ha, e⟩ := absMax_mem hne
  obtain ⟨r, hr, rfl⟩ := List.mem_map.1 ha
  rw [abs_of_nonneg (absMax_nonneg _)] at e
  have hr0 : r ≠ [] := by rintro rfl; rw [e] at h; exact h rfl
  obtain ⟨x, hx, e2⟩ := absMax_mem hr0
  exact ⟨r, hr, x, hx, by rw [e, e2]⟩

theorem map_div_eq_divRows (w : Mat) (a : ℚ) :
    (w.map fun r => r.map (· / a)) = divRows w (List.replicate w.length a) := by
  unfold divRows; rw [zipWith_replicate]

theorem expand_len (c : Cfg) (s) : (expand c.outSize s).length = c.outSize := expand_length _ _

theorem combined_scale {c : Cfg} {w : Mat} (hw : Combined c w) (s) :
    Combined c (scaleRows w (expand c.outSize s)) :=
  scaleRows_isMat hw (by rw [expand_len, hw.1])

theorem torchRemap_shape {c : Cfg} (hc : c.Valid) {ty w s w' s'} (hw : Combined c w) (hs : FitsOut c s)
    (h : torchRemap ty w s = .ok (w', s')) : Combined c w' ∧ FitsOut c s' := by
  unfold torchRemap at h
  rw [rowScale_eq hw.1 hs] at h
  simp only [Bind.bind, Except.bind] at h
  have hsw := combined_scale hw (some s)
  generalize scaleRows w (expand c.outSize (some s)) = sw at *
  cases ty with
  | layerwise =>
    simp only at h
    split_ifs at h with h0
    cases h
    rw [map_div_eq_divRows]
    exact ⟨divRows_isMat hsw (by simp), Or.inl rfl⟩
  | channelwise =>
    simp only at h
    split_ifs at h with h0
    cases h
    exact ⟨divRows_isMat hsw (by simp), Or.inr (by simp [hsw.1])⟩

theorem cppRemap_shape {c : Cfg} {p w s w' s'} (hw : Combined c w)
    (h : cppRemap p w s = .ok (w', s')) : Combined c w' ∧ FitsOut c s' := by
  unfold cppRemap at h
  by_cases hl : s.length = w.length
  swap
  · rw [if_pos hl] at h; cases h
  rw [if_neg (not_not.2 hl)] at h
  have hl' : s.length = c.outSize := hl.trans hw.1
  cases hty : p.type with
  | layerwise =>
    simp only [hty] at h
    split_ifs at h
    unfold cppLayer at h
    simp only at h
    split_ifs at h
    · cases h
      rw [map_div_eq_divRows]
      exact ⟨divRows_isMat hw (by simp), Or.inr (by simp [hl'])⟩
    · cases h; exact ⟨hw, Or.inr hl'⟩
  | channelwise =>
    simp only [hty] at h
    split_ifs at h
    · cases h
      exact ⟨divRows_isMat hw (by simp), Or.inr (by simp [hl', hw.1])⟩
    · unfold cppBounded at h
      simp only at h
      split_ifs at h
      cases h
      refine ⟨⟨by simp [hl', hw.1], ?_⟩, Or.inr (by simp [hl', hw.1])⟩
      intro r hr
      rw [List.mem_iff_getElem] at hr
      obtain ⟨k, hk, rfl⟩ := hr
      have hk' : k < w.length := by simp at hk; omega
      simp [hw.2 _ (List.getElem_mem hk')]

theorem runSteps_good {c : Cfg} (hc : c.Valid) {steps : List Step} (hv : ∀ k ∈ steps, k.Valid c) {t : Tile}
    (h : runSteps c steps = .ok t) : Good c t := by
  unfold runSteps at h
  have h0 : Good c (initScales c (init c)).2 :=
    (setMappingScales_keeps hc _ (by rintro v ⟨⟩; right; simp) _ (init_good hc)).1
  generalize (initScales c (init c)).2 = t0 at *
  induction steps generalizing t0 with
  | nil => cases h; exact h0
  | cons k ks ih =>
    rw [List.foldlM_cons] at h
    cases he : k.exec t0 with
    | error e => rw [he] at h; cases h
    | ok t1 =>
      rw [he] at h
      refine ih (fun k hk => hv k (List.mem_cons_of_mem _ hk)) t1 h ?_
      cases k with
      | call k => cases he; exact step_good hc h0 (hv (.call k) (by simp))
      | torchRemap ty =>
        have := (postRemap_keeps hc (fun w s w' s' a b => torchRemap_shape hc (ty := ty) a b) t0 h0).1
        unfold Step.exec at he
        simp only at he
        split at he
        · next heq => cases he; rw [heq] at this; exact this
        · cases he
      | cppRemap p =>
        have := (postRemap_keeps hc (R := cppRemap p) (fun w s w' s' a _ e => cppRemap_shape a e) t0 h0).1
        unfold Step.exec at he
        simp only at he
        split at he
        · next heq => cases he; rw [heq] at this; exact this
        · cases he

/-! ## Torch tile -/

theorem getWeights_torch {c t s} (hc : c.Valid) (hna : c.analogBias = false) (h : Good c t)
    (hs : getScales t = .ok (some s)) {W b} (hW : getWeights t true = .ok (W, b)) :
    W = scaleRows t.w (expand c.outSize (some s)) := by
  obtain ⟨o, ho, hfit, hfac⟩ := getScales_good h
  rw [hs] at ho; cases ho
  rw [getWeights_combined hc h, rowFactors_eq h hfac] at hW
  simp only [separateWeights, hna, Bool.false_eq_true, if_false, Except.ok.injEq, Prod.mk.injEq] at hW
  exact hW.1.symm

/-- **C12** (torch tile). After any history of calls and remaps, a post-update remap of the torch tile keeps the
logical weights and bias, and afterwards the largest stored magnitude is exactly 1 (per output row for the
channel-wise type) - provided there is something to normalise: a non-zero weight (in every row for the channel-wise
type). -/
theorem C12_torch_post_update (c : Cfg) (hc : c.Valid) (hna : c.analogBias = false) (m : MappingPars)
    (hm : c.mapping = some m) (steps : List Step) (hv : ∀ k ∈ steps, k.Valid c) (t : Tile)
    (hrun : runSteps c steps = .ok t) (hsc : t.mappingScales ≠ none) (W : Mat) (b : Option Vec)
    (hW : getWeights t true = .ok (W, b)) (ty : RemapType)
    (hnz : match ty with
      | .layerwise => ∃ r ∈ W, ∃ x ∈ r, x ≠ 0
      | .channelwise => ∀ r ∈ W, ∃ x ∈ r, x ≠ 0) :
    let r := postRemap (torchRemap ty) t
    r.1 = .ok () ∧ getWeights r.2 true = .ok (W, b) ∧ (∀ row ∈ r.2.w, ∀ x ∈ row, |x| ≤ 1) ∧
    (match ty with
      | .layerwise => ∃ row ∈ r.2.w, ∃ x ∈ row, |x| = 1
      | .channelwise => ∀ row ∈ r.2.w, ∃ x ∈ row, |x| = 1) := by
  intro r
  have h := runSteps_good hc hv hrun
  obtain ⟨o, ho, hfit, hfac⟩ := getScales_good h
  cases o with
  | none => exact absurd (getScales_none.1 ho).1 hsc
  | some s =>
    have hWe := getWeights_torch hc hna h ho hW
    have hW' : Combined c W := by rw [hWe]; exact combined_scale h.w _
    have hR0 : torchRemap ty t.w s = (match ty with
        | .layerwise => if absMax (W.map absMax) = 0 then .error .nanInf else
            .ok (W.map fun r => r.map (· / absMax (W.map absMax)), [absMax (W.map absMax)])
        | .channelwise => if (W.map absMax).any (· = 0) then .error .nanInf
            else .ok (List.zipWith (fun r m => r.map (· / m)) W (W.map absMax), W.map absMax)) := by
      unfold torchRemap
      rw [rowScale_eq h.w.1 (hfit s rfl), ← hWe]
      cases ty <;> rfl
    cases ty with
    | layerwise =>
      simp only at hnz hR0 ⊢
      set M := absMax (W.map absMax) with hM
      have hM0 : M ≠ 0 := by
        obtain ⟨r, hr, x, hx, h0⟩ := hnz
        intro e; exact h0 (absMax2_eq_zero.1 e r hr x hx)
      have hMp : 0 < M := lt_of_le_of_ne (absMax_nonneg _) (Ne.symm hM0)
      rw [if_neg hM0] at hR0
      have hok : RemapOk c t.w s (W.map fun r => r.map (· / M)) [M] := by
        refine ⟨?_, Or.inl rfl, ?_⟩
        · rw [map_div_eq_divRows]; exact divRows_isMat hW' (by simp)
        · rw [← hWe, map_div_eq_divRows, hW'.1, expand_single,
            scaleRows_divRows (by simp [hW'.1]) (by intro a ha; rw [List.eq_of_mem_replicate ha]; exact hM0)]
      obtain ⟨h1, h2, h3, _, _⟩ := postRemap_ok hc h hm ho hR0 hok (Or.inr (by simpa using hMp))
      refine ⟨h1, h3.trans hW, ?_, ?_⟩
      · show ∀ row ∈ (postRemap (torchRemap .layerwise) t).2.w, _
        rw [h2]
        simp only [List.mem_map, forall_exists_index, and_imp, forall_apply_eq_imp_iff₂]
        intro r hr x hx
        rw [abs_div, abs_of_pos hMp, div_le_one hMp]
        exact abs_le_absMax2 hr hx
      · show ∃ row ∈ (postRemap (torchRemap .layerwise) t).2.w, _
        rw [h2]
        obtain ⟨r, hr, x, hx, e⟩ := absMax2_attained hM0
        refine ⟨_, List.mem_map_of_mem hr, _, List.mem_map_of_mem hx, ?_⟩
        rw [abs_div, e, ← hM, abs_of_pos hMp, div_self hM0]
    | channelwise =>
      simp only at hnz hR0 ⊢
      have hpos : ∀ r ∈ W, 0 < absMax r := by
        intro r hr
        refine lt_of_le_of_ne (absMax_nonneg _) fun e => ?_
        obtain ⟨x, hx, h0⟩ := hnz r hr
        exact h0 (absMax_eq_zero.1 e.symm x hx)
      have hany : (W.map absMax).any (· = 0) = false := by
        rw [List.any_eq_false]
        intro a ha
        obtain ⟨r, hr, rfl⟩ := List.mem_map.1 ha
        simpa using (hpos r hr).ne'
      rw [if_neg (by rw [hany]; simp)] at hR0
      have hok : RemapOk c t.w s (divRows W (W.map absMax)) (W.map absMax) := by
        refine ⟨divRows_isMat hW' (by simp), Or.inr (by simp [hW'.1]), ?_⟩
        rw [← hWe, expand_full (by simp [hW'.1]), scaleRows_divRows (by simp)]
        intro a ha
        obtain ⟨r, hr, rfl⟩ := List.mem_map.1 ha
        exact (hpos r hr).ne'
      obtain ⟨h1, h2, h3, _, _⟩ := postRemap_ok hc h hm ho hR0 hok (Or.inr (by
        intro a ha; obtain ⟨r, hr, rfl⟩ := List.mem_map.1 ha; exact hpos r hr))
      have hrow : ∀ row ∈ divRows W (W.map absMax), ∃ r ∈ W, row = r.map (· / absMax r) := by
        intro row hrow
        unfold divRows at hrow
        rw [List.zipWith_map_right, List.zipWith_self] at hrow
        obtain ⟨r, hr, rfl⟩ := List.mem_map.1 hrow
        exact ⟨r, hr, rfl⟩
      refine ⟨h1, h3.trans hW, ?_, ?_⟩
      · show ∀ row ∈ (postRemap (torchRemap .channelwise) t).2.w, _
        rw [h2]
        intro row hr x hx
        obtain ⟨r, hr', rfl⟩ := hrow row hr
        obtain ⟨y, hy, rfl⟩ := List.mem_map.1 hx
        have := hpos r hr'
        rw [abs_div, abs_of_pos this, div_le_one this]
        exact abs_le_absMax hy
      · show ∀ row ∈ (postRemap (torchRemap .channelwise) t).2.w, _
        rw [h2]
        intro row hr
        obtain ⟨r, hr', rfl⟩ := hrow row hr
        have := hpos r hr'
        obtain ⟨y, hy, e⟩ := absMax_mem (v := r) (by rintro rfl; simp [absMax] at this)
        refine ⟨_, List.mem_map_of_mem hy, ?_⟩
        rw [abs_div, abs_of_pos this, ← e, div_self this.ne']

/-- **C12** (torch tile, exception). With nothing to normalise - an all-zero matrix, or one all-zero output row for
the channel-wise type - the remap divides zero by zero: the tile is filled with NaN. -/
theorem C12_torch_post_update_nan (c : Cfg) (hc : c.Valid) (hna : c.analogBias = false)
    (steps : List Step) (hv : ∀ k ∈ steps, k.Valid c) (t : Tile)
    (hrun : runSteps c steps = .ok t) (hsc : t.mappingScales ≠ none) (W : Mat) (b : Option Vec)
    (hW : getWeights t true = .ok (W, b)) (ty : RemapType)
    (hz : match ty with
      | .layerwise => ∀ r ∈ W, ∀ x ∈ r, x = 0
      | .channelwise => ∃ r ∈ W, ∀ x ∈ r, x = 0) :
    (postRemap (torchRemap ty) t).1 = .error .nanInf := by
  have h := runSteps_good hc hv hrun
  obtain ⟨o, ho, hfit, hfac⟩ := getScales_good h
  cases o with
  | none => exact absurd (getScales_none.1 ho).1 hsc
  | some s =>
    have hWe := getWeights_torch hc hna h ho hW
    have hR : torchRemap ty t.w s = .error .nanInf := by
      unfold torchRemap
      rw [rowScale_eq h.w.1 (hfit s rfl), ← hWe]
      cases ty with
      | layerwise => simp only [Bind.bind, Except.bind, absMax2_eq_zero.2 hz, if_true]
      | channelwise =>
        simp only [Bind.bind, Except.bind]
        rw [if_pos]
        obtain ⟨r, hr, h0⟩ := hz
        rw [List.any_eq_true]
        exact ⟨absMax r, List.mem_map_of_mem hr, by simpa using absMax_eq_zero.2 h0⟩
    unfold postRemap
    simp only [Bind.bind, Op.bind, Op.get, Op.lift, ho, hR]

/-! ## RPUCuda tile -/

/-- **C12** (RPUCuda tile). After any history, a remap with target `remapped_wmax > 0` and without a scale range keeps
logical weights and bias (zero rows included, no division by zero), bounds every stored magnitude by the target and
attains it (per non-zero row for the channel-wise type). -/
theorem C12_cpp_post_update (c : Cfg) (hc : c.Valid) (m : MappingPars)
    (hm : c.mapping = some m) (steps : List Step) (hv : ∀ k ∈ steps, k.Valid c) (t : Tile)
    (hrun : runSteps c steps = .ok t) (s : Vec) (hs : getScales t = .ok (some s)) (hlen : s.length = c.outSize)
    (hlr : m.lrCompensation = false ∨ ∀ x ∈ s, 0 < x) (p : RemapPars) (hw : 0 < p.remappedWmax)
    (hr : p.type = .layerwise ∨ p.maxScaleRange ≤ 0) :
    let r := postRemap (cppRemap p) t
    r.1 = .ok () ∧ getWeights r.2 true = getWeights t true ∧
    (∀ row ∈ r.2.w, ∀ x ∈ row, |x| ≤ p.remappedWmax) ∧
    (match p.type with
      | .layerwise => (∃ row ∈ t.w, ∃ x ∈ row, x ≠ 0) → ∃ row ∈ r.2.w, ∃ x ∈ row, |x| = p.remappedWmax
      | .channelwise => ∀ row ∈ r.2.w, (∃ x ∈ row, x ≠ 0) → ∃ x ∈ row, |x| = p.remappedWmax) := by
  intro r
  have h := runSteps_good hc hv hrun
  have hwl : t.w.length = c.outSize := h.w.1
  cases hty : p.type with
  | layerwise =>
    simp only
    set A := absMax (t.w.map absMax) with hA
    have hA0 : 0 ≤ A := absMax_nonneg _
    have hR : cppRemap p t.w s = .ok (cppLayer p.remappedWmax t.w s) := by
      unfold cppRemap; rw [if_neg (by simp [hlen, hwl]), hty]; simp only [hw.ne', if_false]
    unfold cppLayer at hR
    simp only [← hA] at hR
    by_cases hpos : A / p.remappedWmax > 0
    · rw [if_pos hpos] at hR
      set a := A / p.remappedWmax with ha
      have hAp : 0 < A := by
        rcases hA0.eq_or_lt with e | e
        · rw [ha, ← e] at hpos; simp at hpos
        · exact e
      have hAa : A = a * p.remappedWmax := by rw [ha, div_mul_cancel₀ _ hw.ne']
      have hok : RemapOk c t.w s (t.w.map fun r => r.map (· / a)) (s.map (· * a)) := by
        refine ⟨by rw [map_div_eq_divRows]; exact divRows_isMat h.w (by simp), Or.inr (by simpa using hlen), ?_⟩
        rw [expand_full (by simpa using hlen), expand_full hlen]
        unfold scaleRows
        rw [List.zipWith_map]
        congr 1
        funext r q
        rw [List.map_map]
        apply List.map_congr_left
        intro x _
        simp only [Function.comp]
        field_simp
      obtain ⟨h1, h2, h3, _, _⟩ := postRemap_ok hc h hm hs hR hok (hlr.imp_right fun hp x hx => by
        obtain ⟨y, hy, rfl⟩ := List.mem_map.1 hx
        exact mul_pos (hp y hy) hpos)
      refine ⟨h1, h3, ?_, ?_⟩
      · show ∀ row ∈ (postRemap (cppRemap p) t).2.w, _
        rw [h2]
        simp only [List.mem_map, forall_exists_index, and_imp, forall_apply_eq_imp_iff₂]
        intro row hr x hx
        rw [abs_div, abs_of_pos hpos, div_le_iff₀ hpos, mul_comm, ← hAa]
        exact abs_le_absMax2 hr hx
      · intro _
        show ∃ row ∈ (postRemap (cppRemap p) t).2.w, _
        rw [h2]
        obtain ⟨row, hr, x, hx, e⟩ := absMax2_attained hAp.ne'
        refine ⟨_, List.mem_map_of_mem hr, _, List.mem_map_of_mem hx, ?_⟩
        rw [abs_div, e, ← hA, hAa, abs_of_pos hpos, mul_comm, mul_div_assoc, div_self hpos.ne', mul_one]
    · rw [if_neg hpos] at hR
      have hz : ∀ row ∈ t.w, ∀ x ∈ row, x = 0 := by
        apply absMax2_eq_zero.1
        by_contra hne
        exact hpos (div_pos (lt_of_le_of_ne hA0 (Ne.symm hne)) hw)
      obtain ⟨h1, h2, h3, _, _⟩ := postRemap_ok hc h hm hs hR ⟨h.w, Or.inr hlen, rfl⟩ hlr
      refine ⟨h1, h3, ?_, ?_⟩
      · show ∀ row ∈ (postRemap (cppRemap p) t).2.w, _
        rw [h2]
        intro row hr x hx
        rw [hz row hr x hx, abs_zero]; exact hw.le
      · rintro ⟨row, hr, x, hx, hne⟩
        exact absurd (hz row hr x hx) hne
  | channelwise =>
    simp only
    have hr' : p.maxScaleRange ≤ 0 := by rcases hr with e | e; · rw [hty] at e; cases e
                                         · exact e
    have hR : cppRemap p t.w s = .ok (cppChannel p.remappedWmax t.w s) := by
      unfold cppRemap; rw [if_neg (by simp [hlen, hwl]), hty]; simp only [hw.ne', hr', if_true, if_false]
    unfold cppChannel at hR
    simp only at hR
    set f : Vec → ℚ := fun r => orOne (absMax r / p.remappedWmax) with hf
    have hfpos : ∀ r, 0 < f r := by
      intro r; rw [hf]; simp only [orOne]; split_ifs with h0
      · exact h0
      · norm_num
    have hok : RemapOk c t.w s (divRows t.w (t.w.map f)) (List.zipWith (· * ·) s (t.w.map f)) := by
      refine ⟨divRows_isMat h.w (by simp), Or.inr (by simp [hlen, hwl]), ?_⟩
      rw [expand_full (by simp [hlen, hwl]), expand_full hlen]
      unfold scaleRows divRows
      apply List.ext_getElem (by simp [hlen, hwl])
      intro i h1 h2
      have hi : i < t.w.length := by simp at h2; omega
      simp only [List.getElem_zipWith, List.getElem_map, List.map_map]
      apply List.map_congr_left
      intro x _
      have := (hfpos t.w[i]).ne'
      simp only [Function.comp]
      field_simp
    obtain ⟨h1, h2, h3, _, _⟩ := postRemap_ok hc h hm hs hR hok (hlr.imp_right fun hp x hx => by
      rw [List.mem_iff_getElem] at hx
      obtain ⟨k, hk, rfl⟩ := hx
      simp only [List.getElem_zipWith, List.getElem_map]
      exact mul_pos (hp _ (List.getElem_mem _)) (hfpos _))
    have hrow : ∀ row ∈ divRows t.w (t.w.map f), ∃ r ∈ t.w, row = r.map (· / f r) := by
      intro row hrow
      unfold divRows at hrow
      rw [List.zipWith_map_right, List.zipWith_self] at hrow
      obtain ⟨r, hr, rfl⟩ := List.mem_map.1 hrow
      exact ⟨r, hr, rfl⟩
    have hfr : ∀ r : Vec, absMax r ≠ 0 → f r = absMax r / p.remappedWmax := by
      intro r h0
      rw [hf]; simp only [orOne]
      rw [if_pos (div_pos (lt_of_le_of_ne (absMax_nonneg _) (Ne.symm h0)) hw)]
    refine ⟨h1, h3, ?_, ?_⟩
    · show ∀ row ∈ (postRemap (cppRemap p) t).2.w, _
      rw [h2]
      intro row hr x hx
      obtain ⟨r, hr', rfl⟩ := hrow row hr
      obtain ⟨y, hy, rfl⟩ := List.mem_map.1 hx
      by_cases h0 : absMax r = 0
      · rw [absMax_eq_zero.1 h0 y hy]; simpa using hw.le
      · have hle := abs_le_absMax hy
        rw [abs_div, abs_of_pos (hfpos r), div_le_iff₀ (hfpos r), hfr r h0, mul_div_cancel₀ _ hw.ne']
        exact hle
    · show ∀ row ∈ (postRemap (cppRemap p) t).2.w, _
      rw [h2]
      intro row hr hne
      obtain ⟨r, hr', rfl⟩ := hrow row hr
      obtain ⟨x, hx, hx0⟩ := hne
      obtain ⟨y, hy, rfl⟩ := List.mem_map.1 hx
      have h0 : absMax r ≠ 0 := by
        intro e; rw [absMax_eq_zero.1 e y hy] at hx0; simp at hx0
      obtain ⟨z, hz, e⟩ := absMax_mem (v := r) (by rintro rfl; cases hy)
      refine ⟨_, List.mem_map_of_mem hz, ?_⟩
      rw [abs_div, abs_of_pos (hfpos r), hfr r h0, ← e]
      field_simp

theorem foldl_min_le (l : Vec) (a : ℚ) : l.foldl min a ≤ a ∧ ∀ x ∈ l, l.foldl min a ≤ x := by
  induction l generalizing a with
  | nil => exact ⟨le_rfl, by simp⟩
  | cons b l ih =>
    obtain ⟨h1, h2⟩ := ih (min a b)
    refine ⟨h1.trans (min_le_left _ _), ?_⟩
    intro x hx
    rcases List.mem_cons.1 hx with rfl | hx
    · exact h1.trans (min_le_right _ _)
    · exact h2 x hx

theorem foldl_min_mem (l : Vec) (a : ℚ) : l.foldl min a = a ∨ l.foldl min a ∈ l := by
  induction l generalizing a with
  | nil => exact Or.inl rfl
  | cons b l ih =>
    rcases ih (min a b) with h | h
    · rcases min_choice a b with e | e
      · left; simp only [List.foldl_cons]; rw [h, e]
      · right; simp only [List.foldl_cons]; rw [h, e]; simp
    · right; exact List.mem_cons_of_mem _ h

/-- **C12** (RPUCuda tile, bounded scale range). With positive scales, `max_scale_range > 0` and
`max_scale_ref ≥ 0`, the remap keeps logical weights and bias; every new scale is positive and at most
`max_scale_range` times the smallest old scale (or `max_scale_ref` if that is larger); the stored magnitudes of a row
are at most 1 unless the row's scale was capped. -/
theorem C12_cpp_bounded_range (c : Cfg) (hc : c.Valid) (m : MappingPars)
    (hm : c.mapping = some m) (steps : List Step) (hv : ∀ k ∈ steps, k.Valid c) (t : Tile)
    (hrun : runSteps c steps = .ok t) (s : Vec) (hs : getScales t = .ok (some s)) (hlen : s.length = c.outSize)
    (hpos : ∀ x ∈ s, 0 < x) (p : RemapPars) (hty : p.type = .channelwise) (hw : p.remappedWmax = 1)
    (hr : 0 < p.maxScaleRange) (hpr : 0 ≤ p.maxScaleRef) (mn : ℚ) (hmn : mn ∈ s) (hmin : ∀ x ∈ s, mn ≤ x) :
    let r := postRemap (cppRemap p) t
    r.1 = .ok () ∧ getWeights r.2 true = getWeights t true ∧
    ∀ i < c.outSize, 0 < (rowFactors r.2).getD i 0 ∧
      (rowFactors r.2).getD i 0 ≤ max mn p.maxScaleRef * p.maxScaleRange ∧
      ((rowFactors r.2).getD i 0 < max mn p.maxScaleRef * p.maxScaleRange →
        ∀ j, |entry r.2.w i j| ≤ 1) := by
  intro r
  have h := runSteps_good hc hv hrun
  have hwl : t.w.length = c.outSize := h.w.1
  have hmnp := hpos mn hmn
  have hmin' : minScale p.maxScaleRef s = max mn p.maxScaleRef := by
    have e : s.foldl min (s.headD 0) = mn := by
      have h1 := foldl_min_le s (s.headD 0)
      have hhd : s.headD 0 ∈ s := by cases s with | nil => cases hmn | cons a s => simp
      have h2 : s.foldl min (s.headD 0) ∈ s := by
        rcases foldl_min_mem s (s.headD 0) with e | e
        · rw [e]; exact hhd
        · exact e
      exact le_antisymm (h1.2 mn hmn) (hmin _ h2)
    unfold minScale
    simp only [e, max_eq_left hmnp.le]
    by_cases h0 : p.maxScaleRef = 0
    · simp [h0, max_eq_left hmnp.le]
    · rw [if_pos ⟨hmnp, h0⟩]
  set M := max mn p.maxScaleRef with hM
  have hMp : 0 < M := lt_max_of_lt_left hmnp
  set g : Vec → ℚ → ℚ := fun r o => boundedScale p.maxScaleRange M (absMax r) o with hg
  have hgv : ∀ r o, 0 < o → 0 < g r o ∧ g r o ≤ M * p.maxScaleRange ∧
      (g r o < M * p.maxScaleRange → g r o = if absMax r > 0 then absMax r * o else o) := by
    intro r o ho
    have hns : 0 < (if absMax r > 0 then absMax r * o else o) := by
      split_ifs with h0
      · exact mul_pos h0 ho
      · exact ho
    simp only [hg, boundedScale, if_pos hMp]
    generalize (if absMax r > 0 then absMax r * o else o) = ns at *
    split_ifs with h1
    · exact ⟨mul_pos hMp hr, le_rfl, fun hh => absurd hh (lt_irrefl _)⟩
    · rw [gt_iff_lt, not_lt, div_le_iff₀ hMp, mul_comm] at h1
      exact ⟨hns, h1, fun _ => rfl⟩
  set ns := List.zipWith g t.w s with hns
  have hnsl : ns.length = c.outSize := by simp [hns, hwl, hlen]
  have hnsp : ∀ x ∈ ns, 0 < x := by
    intro x hx
    rw [List.mem_iff_getElem] at hx
    obtain ⟨k, hk, rfl⟩ := hx
    simp only [hns, List.getElem_zipWith]
    exact (hgv _ _ (hpos _ (List.getElem_mem _))).1
  have hR : cppRemap p t.w s = .ok
      (List.zipWith (fun r p => r.map fun x => x * p.1 / p.2) t.w (List.zip s ns), ns) := by
    unfold cppRemap
    rw [if_neg (by simp [hlen, hwl]), hty]
    simp only [not_le.2 hr, if_false, hw, ne_eq, not_true_eq_false]
    unfold cppBounded
    simp only [hmin']
    rw [if_neg]
    rw [Bool.not_eq_true, List.any_eq_false]
    intro x hx
    simpa using (hnsp x hx).ne'
  have hok : RemapOk c t.w s
      (List.zipWith (fun r p => r.map fun x => x * p.1 / p.2) t.w (List.zip s ns)) ns := by
    refine ⟨(cppRemap_shape h.w hR).1, Or.inr hnsl, ?_⟩
    rw [expand_full hnsl, expand_full hlen]
    unfold scaleRows
    apply List.ext_getElem (by simp [hlen, hwl, hnsl])
    intro i h1 h2
    have hi : i < ns.length := by simp at h1; omega
    simp only [List.getElem_zipWith, List.getElem_zip, List.map_map]
    apply List.map_congr_left
    intro x _
    have := (hnsp _ (List.getElem_mem hi)).ne'
    simp only [Function.comp]
    field_simp
  obtain ⟨h1, h2, h3, _, h5⟩ := postRemap_ok hc h hm hs hR hok (Or.inr hnsp)
  refine ⟨h1, h3, ?_⟩
  intro i hi
  have hi1 : i < t.w.length := by omega
  have hi2 : i < s.length := by omega
  have hi3 : i < ns.length := by omega
  have e : (rowFactors r.2).getD i 0 = g t.w[i] s[i] := by
    show (rowFactors (postRemap (cppRemap p) t).2).getD i 0 = _
    rw [h5, expand_full hnsl, List.getD_eq_getElem _ _ hi3]
    simp [hns]
  obtain ⟨g1, g2, g3⟩ := hgv t.w[i] s[i] (hpos _ (List.getElem_mem _))
  rw [e]
  refine ⟨g1, g2, fun hlt j => ?_⟩
  show |entry (postRemap (cppRemap p) t).2.w i j| ≤ 1
  rw [h2]
  unfold entry
  rw [List.getD_eq_getElem (d := ([] : Vec)) _ (by simp [hwl, hlen, hnsl]; omega)]
  simp only [List.getElem_zipWith, List.getElem_zip]
  have hsi := hpos _ (List.getElem_mem hi2)
  have hnsi : ns[i] = g t.w[i] s[i] := by simp [hns]
  rw [hnsi, g3 hlt]
  by_cases hj : j < t.w[i].length
  · rw [List.getD_eq_getElem _ _ (by simpa using hj)]
    simp only [List.getElem_map]
    have hle := abs_le_absMax (List.getElem_mem hj)
    split_ifs with h0
    · rw [abs_div, abs_mul, abs_of_pos hsi, abs_of_pos (mul_pos h0 hsi), div_le_one (mul_pos h0 hsi)]
      exact mul_le_mul_of_nonneg_right hle hsi.le
    · have : t.w[i][j] = 0 := by
        have := hle.trans (not_lt.1 h0); exact abs_nonpos_iff.1 this
      rw [this]; simp
  · rw [List.getD_eq_default _ _ (by simpa using hj)]; simp

/-! ## Non-vacuity -/

/-- A two-output inference tile with remapping and learned output scales. -/
def exCfg : Cfg :=
  { outSize := 2, inSize := 2, digitalBias := true, mapping := some { omega := some 1, learnOutScaling := true } }

/-- A history: write weights, remap, change the learned scales, remap row-wise in the other back end. -/
def exSteps : List Step :=
  [.call (.setWeights [[2, -4], [1, 3]] (some [1, 2]) true none), .torchRemap .layerwise,
   .call (.setLearnedOutScales [3]), .cppRemap { type := .channelwise, remappedWmax := 1 / 2 }]

/-- Observe a tile after a history. -/
def after {α : Type} (steps : List Step) (f : Tile → α) : Except PyErr α := (runSteps exCfg steps).map f

/-- The same with any remap afterwards: stored weights and mapping scales. -/
def remapped (R : Remapper) (t : Tile) : Except PyErr Unit × Mat × Option Vec :=
  ((postRemap R t).1, (postRemap R t).2.w, (postRemap R t).2.mappingScales)

example :
    after exSteps (fun t => (t.mappingScales, t.w)) = .ok (some [24, 18], [[1 / 4, -(1 / 2)], [1 / 6, 1 / 2]]) ∧
    after exSteps (getWeights · true) = .ok (.ok ([[6, -12], [3, 9]], some [1, 2])) ∧
    after exSteps (remapped (torchRemap .channelwise)) = .ok (.ok (), [[1 / 2, -1], [1 / 3, 1]], some [12, 9]) ∧
    after exSteps (fun t => (remapped (cppRemap { type := .channelwise, maxScaleRange := 1 / 2 }) t).2.2) =
      .ok (some [9, 9]) ∧
    after [.call (.setWeights [[2, -4], [0, 0]] none true none)]
      (fun t => (remapped (torchRemap .channelwise) t).1) = .ok (.error .nanInf) ∧
    after [.call (.setWeights [[2, -4], [0, 0]] none true none)]
      (fun t => (remapped (cppRemap { type := .channelwise }) t).1) = .ok (.ok ()) := by
  decide +kernel

/-- **C12** (construction). A freshly constructed tile with remapping and mapping parameters has one digital scale of 1
per output when no learned scales exist, so its logical weights are its device weights. -/
theorem C12_initial_scales (c : Cfg) (m : MappingPars) (hm : c.mapping = some m) (hl : m.learnOutScaling = false)
    (ho : 0 < c.outSize) (t : Tile) (h : runSteps c [] = .ok t) :
    getScales t = .ok (some (List.replicate c.outSize 1)) := by
  simp only [runSteps, List.foldlM_nil, pure, Except.pure, Except.ok.injEq] at h
  subst h
  have hi : (init c).cfg = c := rfl
  have hle : (init c).learned = none := by simp [init, hm, hl]
  have hms : (init c).mappingScales = none ∨ (init c).mappingScales = some [1] := by
    simp only [init, hm]
    cases m.omega with
    | none => exact .inl rfl
    | some o => dsimp only; split_ifs <;> simp
  have key : ∀ t : Tile, t.cfg.mapping = some m → t.learned = none →
      (t.mappingScales = none ∨ t.mappingScales = some [1]) →
      getScales (setMappingScales (.tensor (List.replicate c.outSize 1)) t).2 =
        .ok (some (List.replicate c.outSize 1)) := by
    intro t h1 h2 h3
    have ha : assignScales (.tensor (List.replicate c.outSize 1)) t.mappingScales =
        some (List.replicate c.outSize 1) := by
      rcases h3 with h3 | h3 <;> rw [h3] <;> simp only [assignScales]
      split_ifs with h
      · simp only [List.length_replicate] at h
        simp [h]
      · rfl
    have hmean : mean (List.replicate c.outSize (1 : ℚ)) = 1 := by
      simp only [mean, List.sum_replicate, List.length_replicate, nsmul_eq_mul, mul_one]
      exact div_self (by exact_mod_cast ho.ne')
    simp only [setMappingScales, bind, Op.bind, Op.get, h1, ha, Op.modify]
    cases m.lrCompensation <;>
      simp [hmean, Op.modify, getScales, h2, pure, Op.pure]
  exact key (init c) (by rw [hi, hm]) hle hms

/-- **C12** (C++ tile, refused combination). A bounded scale range with another target than `1` is refused, whatever the tile, which is left
unchanged. -/
theorem C12_cpp_refused (t : Tile) (s : Vec) (hs : getScales t = .ok (some s)) (p : RemapPars) (hty : p.type = .channelwise)
    (hr : 0 < p.maxScaleRange) (hw : p.remappedWmax ≠ 1) :
    postRemap (cppRemap p) t = (.error .runtimeError, t) := by
  have hc : cppRemap p t.w s = .error .runtimeError := by
    unfold cppRemap
    by_cases hl : s.length ≠ t.w.length
    · rw [if_pos hl]
    · rw [if_neg hl]
      simp only [hty]
      rw [if_neg (not_le.2 hr), if_pos hw]
  unfold postRemap
  simp [bind, Op.get, Op.lift, Op.bind, hs, hc]

example : (runSteps { outSize := 2, inSize := 1 } []).map (fun t => getScales t) = .ok (.ok (some [1, 1])) := by
  decide +kernel

end Aihw.PostUpdate
