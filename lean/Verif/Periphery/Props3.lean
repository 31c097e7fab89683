import Verif.Periphery.Props2

/-!
# Properties C15 (update), C16 (input range), C39 (backward)
-/
namespace Aihw.Periphery

/-! ## C15 -/

theorem entry_eq {w : Mat} {i j : Nat} (hi : i < w.length) (hj : j < w[i].length) :
    entry w i j = w[i][j] := by
  unfold entry
  rw [List.getD_eq_getElem _ _ hi, List.getD_eq_getElem _ _ hj]

theorem bdiv_eq {n : Nat} {d s : Vec} (hd : d.length = n) (hs : s.length = 1 ∨ s.length = n)
    (hnz : ∀ x ∈ s, x ≠ 0) :
    bdiv d s = .ok (List.zipWith (· / ·) d (expand n (some s))) := by
  unfold bdiv
  have : s.any (· = 0) = false := by
    rw [List.any_eq_false]; intro x hx; simpa using hnz x hx
  rw [this]
  simp only [Bool.false_eq_true, if_false]
  split_ifs with h
  · rw [expand_full (by omega)]
  · rcases hs with hs | hs
    · obtain ⟨c', rfl⟩ := List.length_eq_one_iff.1 hs
      simp only [expand_single, ← hd, zipWith_replicate]
    · omega

theorem outerUpdate_entry {o n : Nat} {w : Mat} {lr : ℚ} {d x : Vec} (hw : IsMat o n w)
    (hd : d.length = o) (hx : x.length = n) {i j : Nat} (hi : i < o) (hj : j < n) :
    entry (outerUpdate w lr d x) i j = entry w i j - lr * d.getD i 0 * x.getD j 0 := by
  obtain ⟨h1, h2⟩ := hw
  have hiw : i < w.length := by omega
  have hjw : j < w[i].length := by rw [h2 _ (List.getElem_mem hiw)]; exact hj
  have ho := outerUpdate_isMat (lr := lr) (d := d) (x := x) ⟨h1, h2⟩ hd hx
  have hio : i < (outerUpdate w lr d x).length := by rw [ho.1]; exact hi
  have hjo : j < (outerUpdate w lr d x)[i].length := by rw [ho.2 _ (List.getElem_mem hio)]; exact hj
  rw [entry_eq hio hjo, entry_eq hiw hjw, List.getD_eq_getElem _ _ (by omega),
    List.getD_eq_getElem _ _ (by omega)]
  simp [outerUpdate]

theorem scaleRows_entry {o n : Nat} {w : Mat} {s : Vec} (hw : IsMat o n w) (hs : s.length = o)
    {i j : Nat} (hi : i < o) (hj : j < n) : entry (scaleRows w s) i j = s.getD i 0 * entry w i j := by
  obtain ⟨h1, h2⟩ := hw
  have hiw : i < w.length := by omega
  have hjw : j < w[i].length := by rw [h2 _ (List.getElem_mem hiw)]; exact hj
  have ho := scaleRows_isMat (s := s) ⟨h1, h2⟩ (by omega)
  have hio : i < (scaleRows w s).length := by rw [ho.1]; exact hi
  have hjo : j < (scaleRows w s)[i].length := by rw [ho.2 _ (List.getElem_mem hio)]; exact hj
  rw [entry_eq hio hjo, entry_eq hiw hjw, List.getD_eq_getElem _ _ (by omega)]
  simp [scaleRows]

theorem storedWeights_entry {c t} (h : Good c t) {i j : Nat} (hj : j < c.inSize) :
    entry (storedWeights t) i j = entry t.w i j := by
  unfold storedWeights
  rw [h.cfg]
  cases ha : c.analogBias with
  | false => simp
  | true =>
    simp only [if_true]
    unfold entry
    by_cases hi : i < t.w.length
    · have hr := h.w.2 _ (List.getElem_mem hi)
      rw [ha] at hr
      simp only [if_true] at hr
      have e1 : (t.w.map List.dropLast).getD i [] = (t.w[i]).dropLast := by
        rw [List.getD_eq_getElem _ _ (by simpa using hi)]; simp
      have e2 : t.w.getD i [] = t.w[i] := List.getD_eq_getElem _ _ hi
      rw [e1, e2, List.getD_eq_getElem _ _ (by simp [hr]; exact hj),
        List.getD_eq_getElem _ _ (by omega)]
      simp
    · have e1 : (t.w.map List.dropLast).getD i [] = [] := List.getD_eq_default _ _ (by simpa using hi)
      have e2 : t.w.getD i [] = [] := List.getD_eq_default _ _ (by omega)
      rw [e1, e2]

/-- The device weights after `update(x, d)`. -/
theorem update_eq {c t} (h : Good c t) {x d : Vec} (hx : x.length = c.inSize)
    (hd : d.length = c.outSize) (hir : t.inputRange ≠ some 0)
    (hms : ∀ v, t.mappingScales = some v → ∀ a ∈ v, a ≠ 0) :
    ∃ x' d', update x d t =
        (.ok (), { t with w := outerUpdate t.w t.devLr d' (if c.analogBias then x' ++ [1] else x') }) ∧
      x'.length = c.inSize ∧ d'.length = c.outSize ∧
      (∀ j < c.inSize, x'.getD j 0 = (clippedInput t.inputRange x).getD j 0 / t.inputRange.getD 1) ∧
      (∀ i < c.outSize, d'.getD i 0 = match t.mappingScales with
        | none => d.getD i 0
        | some _ => d.getD i 0 / (factor t.mappingScales i * t.mappingLrScale)) := by
  obtain ⟨x', hx', hxl, hxr⟩ : ∃ x', preUpdateX x t = (.ok x', t) ∧
      x'.length = c.inSize ∧
      (∀ j < c.inSize, x'.getD j 0 = (clippedInput t.inputRange x).getD j 0 / t.inputRange.getD 1) := by
    unfold preUpdateX
    simp only [Bind.bind, Op.bind, Op.get]
    rcases h.ir_cases with ⟨h1, h2⟩ | ⟨r, p, h1, h2⟩
    · rw [h1]; exact ⟨x, rfl, hx, by intro j _; simp [clippedInput]⟩
    · have hr0 : r ≠ 0 := by rintro rfl; exact hir h1
      rw [h1]
      refine ⟨(clippedInput (some r) x).map (· / r), ?_, by simp [clippedInput, hx], ?_⟩
      · simp only [applyInputRange_eq h1 h2, hr0, if_false, Bool.false_eq_true, h1,
          Option.getD_some, Pure.pure, Op.pure, Op.bind]
      · intro j hj
        rw [List.getD_eq_getElem _ _ (by simp [clippedInput, hx]; exact hj),
          List.getD_eq_getElem _ _ (by simp [clippedInput, hx]; exact hj)]
        simp
  obtain ⟨d', hd', hdl, hdr⟩ : ∃ d', preUpdateD t d = .ok d' ∧ d'.length = c.outSize ∧
      (∀ i < c.outSize, d'.getD i 0 = match t.mappingScales with
        | none => d.getD i 0
        | some _ => d.getD i 0 / (factor t.mappingScales i * t.mappingLrScale)) := by
    unfold preUpdateD
    cases hm : t.mappingScales with
    | none => exact ⟨d, rfl, hd, by intros; rfl⟩
    | some m =>
      have hfit : (m.map (· * t.mappingLrScale)).length = 1 ∨ (m.map (· * t.mappingLrScale)).length = c.outSize := by
        have := h.ms m hm; unfold FitsOut at this; simpa using this
      have hnz : ∀ a ∈ m.map (· * t.mappingLrScale), a ≠ 0 := by
        intro a ha
        obtain ⟨b, hb, rfl⟩ := List.mem_map.1 ha
        exact mul_ne_zero (hms m hm b hb) h.lr
      refine ⟨List.zipWith (· / ·) d (expand c.outSize (some (m.map (· * t.mappingLrScale)))), ?_,
        by simp [expand_length, hd], ?_⟩
      · exact bdiv_eq hd hfit hnz
      · intro i hi
        have e : m.map (· * t.mappingLrScale) = m.map (t.mappingLrScale * ·) := by
          apply List.map_congr_left; intro a _; ring
        rw [List.getD_eq_getElem _ _ (by simp [expand_length, hd]; exact hi),
          List.getD_eq_getElem _ _ (by omega)]
        simp only [List.getElem_zipWith, expand_getElem]
        rw [e, factor_map_mul, mul_comm]
  refine ⟨x', d', ?_, hxl, hdl, hxr, hdr⟩
  have hpre : preUpdate x d t = (.ok (x', d'), t) := by
    unfold preUpdate
    simp only [Bind.bind, Op.bind, hx', Op.get, Op.lift, hd', Pure.pure, Op.pure]
  unfold update
  simp only [Bind.bind, Op.bind, hpre, Op.get, h.cfg, hxl, hdl, and_self, if_true, Op.modify]

/-- **C15** (update). On every reachable tile whose mapping scales are non-zero, the sequence
`set_learning_rate(lr); update(x, d)` on an ideal device changes the logical weights (as returned by
`get_weights()`) by `-lr * l_i * d_i * clip(x)_j / r`, where `l_i` is the learned output scale (1 if there is
none) and `r` the input range (1 if there is none): the mapping scales and the learning-rate compensation
cancel exactly.  (Requirement `hcomp`: the compensation factor is not left over from scales that have since been
removed, see the example below.) -/
theorem C15_update (c : Cfg) (hc : c.Valid) (calls : List Call) (hcalls : ∀ k ∈ calls, k.Valid c)
    (lr : ℚ) (x d : Vec) (hx : x.length = c.inSize) (hd : d.length = c.outSize)
    (hir : (run c calls).inputRange ≠ some 0)
    (hms : ∀ v, (run c calls).mappingScales = some v → ∀ a ∈ v, a ≠ 0)
    (hcomp : (run c calls).mappingScales = none → (run c calls).mappingLrScale = 1) :
    let t := run c calls
    let t' := run c (calls ++ [.setLearningRate (some lr), .update x d])
    ∃ W b W' b', getWeights t true = .ok (W, b) ∧ getWeights t' true = .ok (W', b') ∧
      ∀ i < c.outSize, ∀ j < c.inSize, entry W' i j = entry W i j -
        lr * factor t.learned i * d.getD i 0 * (clippedInput t.inputRange x).getD j 0 /
          t.inputRange.getD 1 := by
  intro t t'
  have ht : Good c t := run_good hc hcalls
  have ht' : Good c t' := by
    refine run_good hc ?_
    intro k hk
    simp only [List.mem_append, List.mem_cons, List.not_mem_nil, or_false] at hk
    rcases hk with hk | rfl | rfl
    · exact hcalls k hk
    · trivial
    · trivial
  set t1 := step t (.setLearningRate (some lr)) with ht1
  have ht1g : Good c t1 := step_good hc ht trivial
  have hstep : t' = step t1 (.update x d) := by
    show run c (calls ++ _) = _
    simp only [run, List.foldl_append, List.foldl_cons, List.foldl_nil, ht1]
    rfl
  have e1 : t1 = { t with devLr := lr * t.mappingLrScale } := rfl
  obtain ⟨x', d', hup, hxl, hdl, hxr, hdr⟩ := update_eq (x := x) (d := d) ht1g hx hd
    (by rw [e1]; exact hir) (by rw [e1]; exact hms)
  have hw' : t' = { t1 with w := outerUpdate t1.w t1.devLr d' (if c.analogBias then x' ++ [1] else x') } := by
    rw [hstep]; show (update x d t1).2 = _; rw [hup]
  refine ⟨_, _, _, _, getWeights_scaled hc ht, getWeights_scaled hc ht', ?_⟩
  intro i hi j hj
  have hrl : ∀ s : Tile, Good c s → (rowFactors s).length = c.outSize := by
    intro s hs; simp [rowFactors, hs.cfg]
  have hrf : rowFactors t' = rowFactors t := by rw [hw', e1]; rfl
  have hrv : (rowFactors t).getD i 0 = factor t.mappingScales i * factor t.learned i := by
    rw [List.getD_eq_getElem _ _ (by rw [hrl t ht]; exact hi)]; simp [rowFactors]
  rw [scaleRows_entry (storedWeights_isMat ht') (hrl _ ht') hi hj,
    scaleRows_entry (storedWeights_isMat ht) (hrl _ ht) hi hj,
    storedWeights_entry ht' hj, storedWeights_entry ht hj, hrf, hrv]
  have hwt : t'.w = outerUpdate t.w (lr * t.mappingLrScale) d' (if c.analogBias then x' ++ [1] else x') := by
    rw [hw', e1]
  rw [hwt, outerUpdate_entry ht.w hdl (by split_ifs <;> simp [hxl]) hi (by omega)]
  have hx'' : (if c.analogBias = true then x' ++ [1] else x').getD j 0 = x'.getD j 0 := by
    split_ifs
    · rw [List.getD_append _ _ _ _ (by omega)]
    · rfl
  rw [hx'', hxr j hj, hdr i hi]
  rw [e1]
  cases hm : t.mappingScales with
  | none =>
    have : t.mappingLrScale = 1 := hcomp hm
    simp only [factor, this, hm]
    ring
  | some m =>
    have hf : factor (some m) i ≠ 0 := by
      have hfit := ht.ms m hm
      unfold factor
      simp only
      split_ifs with h1
      · rw [List.getD_eq_getElem _ _ (by omega)]
        exact hms m hm _ (List.getElem_mem _)
      · have : i < m.length := by rcases hfit with h | h <;> omega
        rw [List.getD_eq_getElem _ _ this]
        exact hms m hm _ (List.getElem_mem _)
    have hl := ht.lr
    simp only
    field_simp

/-- **C15** (learning rate). `get_learning_rate()` returns the rate last given to `set_learning_rate`. -/
theorem C15_learning_rate (c : Cfg) (hc : c.Valid) (calls : List Call) (hcalls : ∀ k ∈ calls, k.Valid c)
    (lr : ℚ) : getLearningRate (run c (calls ++ [.setLearningRate (some lr)])) = .ok lr := by
  have ht := run_good hc hcalls
  have e : run c (calls ++ [.setLearningRate (some lr)]) =
      { run c calls with devLr := lr * (run c calls).mappingLrScale } := by
    simp only [run, List.foldl_append, List.foldl_cons, List.foldl_nil]; rfl
  rw [e]
  unfold getLearningRate
  simp only [ht.lr, if_false]
  rw [mul_div_cancel_right₀ _ ht.lr]

/-- **C15** (stale learning rate). If the scales are changed after `set_learning_rate`, the reported rate is
off by the ratio of the old and new compensation factors. -/
theorem C15_stale_learning_rate (c : Cfg) (hc : c.Valid) (calls : List Call)
    (hcalls : ∀ k ∈ calls, k.Valid c) (lr : ℚ) (a : ScaleArg) (ha : (Call.setScales a).Valid c) :
    let t := run c calls
    let t' := run c (calls ++ [.setLearningRate (some lr), .setScales a])
    getLearningRate t' = .ok (lr * t.mappingLrScale / t'.mappingLrScale) := by
  intro t t'
  have ht : Good c t := run_good hc hcalls
  have ht' : Good c t' := by
    refine run_good hc ?_
    intro k hk
    simp only [List.mem_append, List.mem_cons, List.not_mem_nil, or_false] at hk
    rcases hk with hk | rfl | rfl
    · exact hcalls k hk
    · trivial
    · exact ha
  have hdev : t'.devLr = lr * t.mappingLrScale := by
    have e : t' = (setScales a { t with devLr := lr * t.mappingLrScale }).2 := by
      show run c (calls ++ _) = _
      simp only [run, List.foldl_append, List.foldl_cons, List.foldl_nil]; rfl
    rw [e]
    have hsm : ∀ s, (setMappingScales a s).2.devLr = s.devLr := by
      intro s
      unfold setMappingScales
      simp only [Bind.bind, Op.bind, Op.get]
      cases s.cfg.mapping with
      | none => rfl
      | some m =>
        cases a with
        | none => rfl
        | float q => simp only [Op.modify]; split_ifs <;> rfl
        | tensor v => simp only [Op.modify]; split_ifs <;> rfl
    have hb : (setScales a { t with devLr := lr * t.mappingLrScale }).2.devLr =
        (setMappingScales a { t with devLr := lr * t.mappingLrScale }).2.devLr := by
      unfold setScales
      simp only [Bind.bind, Op.bind]
      cases hs : setMappingScales a { t with devLr := lr * t.mappingLrScale } with
      | mk r s =>
        cases r with
        | ok u => simp only [setLearned_one]
        | error e => rfl
    rw [hb, hsm]
  unfold getLearningRate
  simp only [ht'.lr, if_false, hdev]

/-- Non-vacuity of C15, with scales 2 and 8 and learning-rate compensation (mean 5), and the left-over
compensation: after the scales were removed with `set_scales(None)` the compensation factor 1/5 stays and the
same step is five times too small. -/
example :
    let c : Cfg := { outSize := 2, inSize := 1, mapping := some { lrCompensation := true } }
    let calls := [Call.setScales (.tensor [2, 8])]
    let calls2 := [Call.setScales (.tensor [2, 8]), .setScales .none]
    c.Valid ∧ (∀ k ∈ calls, k.Valid c) ∧ (run c calls).mappingScales = some [2, 8] ∧
      getWeights (run c (calls ++ [.setLearningRate (some 1), .update [3] [1, 1]])) true =
        .ok ([[-3], [-3]], none) ∧
      getWeights (run c (calls2 ++ [.setLearningRate (some 1), .update [3] [1, 1]])) true =
        .ok ([[-3 / 5], [-3 / 5]], none) := by
  refine ⟨⟨by decide, by decide, by decide⟩, ?_, by decide +kernel, by decide +kernel, by decide +kernel⟩
  intro k hk
  simp only [List.mem_cons, List.not_mem_nil, or_false] at hk
  rw [hk]; right; rfl

end Aihw.Periphery
