import Verif.Periphery.Lemmas

namespace Aihw.Periphery

attribute [local simp] bind Op.bind Op.get Op.modify Op.throw Op.lift pure Op.pure

/-- New mapping scales after writing tensor `v` over `old`. -/
def newScales (old : Option Vec) (v : Vec) : Vec :=
  match old with
  | none => v
  | some o => if v.length = 1 then o.map fun _ => v.headD 0 else v

theorem newScales_fits {c : Cfg} {old : Option Vec} {v : Vec} (ho : ∀ o, old = some o → FitsOut c o)
    (hv : FitsOut c v) : FitsOut c (newScales old v) := by
  unfold newScales
  cases old with
  | none => exact hv
  | some o =>
    simp only
    split_ifs with h
    · have := ho o rfl; unfold FitsOut at *; simpa using this
    · exact hv

theorem newScales_factor {c : Cfg} (hc : c.Valid) {old : Option Vec} {v : Vec}
    (ho : ∀ o, old = some o → FitsOut c o) : ∀ i < c.outSize,
    factor (some (newScales old v)) i = factor (some v) i := by
  intro i hi
  unfold newScales
  cases old with
  | none => rfl
  | some o =>
    simp only
    split_ifs with h
    · obtain ⟨x, rfl⟩ := List.length_eq_one_iff.1 h
      have ho' := ho o rfl
      have hpos : 0 < o.length := by
        rcases ho' with h | h <;> have := hc.out_pos <;> omega
      simp only [factor, List.length_map, List.headD_cons, List.length_singleton, if_true,
        List.getD_cons_zero]
      split_ifs with h1
      · rw [List.getD_eq_getElem _ _ (by simpa using hpos)]; simp
      · have : i < o.length := by rcases ho' with h | h <;> omega
        rw [List.getD_eq_getElem _ _ (by simpa using this)]; simp
    · rfl

theorem sum_pos_of_pos {v : Vec} (h : ∀ x ∈ v, 0 < x) (hne : v ≠ []) : 0 < v.sum := by
  induction v with
  | nil => exact absurd rfl hne
  | cons a v ih =>
    by_cases hv : v = []
    · subst hv; simpa using h a (by simp)
    · have h1 := h a (by simp)
      have h2 := ih (fun x hx => h x (List.mem_cons_of_mem _ hx)) hv
      simp only [List.sum_cons]; linarith

theorem mean_pos {v : Vec} (h : ∀ x ∈ v, 0 < x) (hne : v ≠ []) : 0 < mean v := by
  unfold mean
  have : (0 : ℚ) < v.length := by
    have : 0 < v.length := List.length_pos_of_ne_nil hne
    exact_mod_cast this
  exact div_pos (sum_pos_of_pos h hne) this

theorem newScales_pos {old : Option Vec} {v : Vec} (hne : v ≠ []) (h : ∀ x ∈ v, 0 < x) :
    ∀ x ∈ newScales old v, 0 < x := by
  unfold newScales
  cases old with
  | none => exact h
  | some o =>
    simp only
    split_ifs with h1
    · obtain ⟨y, rfl⟩ := List.length_eq_one_iff.1 h1
      intro x hx
      simp only [List.headD_cons, List.map_const', List.mem_replicate] at hx
      rw [hx.2]; exact h y (by simp)
    · exact h

/-- Complete description of `set_mapping_scales(tensor)`. -/
theorem setMappingScales_tensor {t : Tile} {m : MappingPars} (hm : t.cfg.mapping = some m) (v : Vec) :
    setMappingScales (.tensor v) t =
      (let ms := newScales t.mappingScales v
       if m.lrCompensation = true then
         if mean ms = 0 then (.error .zeroDivision, { t with mappingScales := some ms })
         else (.ok (), { t with mappingScales := some ms, mappingLrScale := 1 / mean ms })
       else (.ok (), { t with mappingScales := some ms })) := by
  unfold setMappingScales
  simp only [bind, Op.bind, Op.get, hm]
  have e : assignScales (.tensor v) t.mappingScales = some (newScales t.mappingScales v) := by
    cases t.mappingScales with
    | none => rfl
    | some o => simp only [newScales, assignScales]; split_ifs <;> rfl
  simp only [e, Op.modify, Option.getD_some]
  split_ifs <;> rfl

theorem setLearned_one (t : Tile) :
    setLearnedOutScales [1] t = (.ok (), { t with learned := t.learned.map fun l => l.map fun _ => 1 }) := by
  unfold setLearnedOutScales
  cases t with | mk _ _ _ _ _ learned _ _ _ _ =>
  cases learned <;> simp [Op.get]

theorem setScales_tensor_pos {c t m v} (hc : c.Valid) (h : Good c t) (hm : c.mapping = some m)
    (hv : FitsOut c v) (hpos : ∀ x ∈ v, 0 < x) :
    ∃ ms mls, setScales (.tensor v) t =
        (.ok (), { t with mappingScales := some ms, mappingLrScale := mls,
                          learned := t.learned.map fun l => l.map fun _ => 1 }) ∧
      FitsOut c ms ∧ (∀ i < c.outSize, factor (some ms) i = factor (some v) i) ∧ mls ≠ 0 ∧
      (m.lrCompensation = false → mls = t.mappingLrScale) := by
  have hne : v ≠ [] := by
    rintro rfl
    rcases hv with h | h
    · simp at h
    · have := hc.out_pos; simp at h; omega
  have hfit := newScales_fits h.ms hv
  have hne' : newScales t.mappingScales v ≠ [] := by
    intro he; rw [he] at hfit
    rcases hfit with h | h
    · simp at h
    · have := hc.out_pos; simp at h; omega
  have hmean := mean_pos (newScales_pos (old := t.mappingScales) hne hpos) hne'
  have hm' : t.cfg.mapping = some m := by rw [h.cfg]; exact hm
  unfold setScales
  cases hl : m.lrCompensation with
  | true =>
    refine ⟨newScales t.mappingScales v, 1 / mean (newScales t.mappingScales v), ?_, hfit,
      newScales_factor hc h.ms, by positivity, by simp⟩
    simp only [bind, Op.bind, setMappingScales_tensor hm', hl, if_true, hmean.ne', if_false,
      setLearned_one]
  | false =>
    refine ⟨newScales t.mappingScales v, t.mappingLrScale, ?_, hfit,
      newScales_factor hc h.ms, h.lr, by simp⟩
    simp [setMappingScales_tensor hm', hl, setLearned_one]

theorem factor_learned_reset {c : Cfg} (hc : c.Valid) (l : Option Vec) (h : ∀ v, l = some v → FitsOut c v) :
    ∀ i < c.outSize, factor (l.map fun l => l.map fun _ => 1) i = 1 := by
  intro i hi
  cases l with
  | none => rfl
  | some l =>
    have := newScales_factor (c := c) hc (old := some l) (v := [1]) (by intro o ho; exact h o ho) i hi
    simpa [newScales, factor] using this

/-! ### Scaling a matrix -/

/-- The (positive) factor by which row(s) with absolute maximum `a` are divided. -/
def alphaOf (o a : ℚ) : ℚ := if a / o = 0 then 1 else a / o

theorem alphaOf_pos {o a : ℚ} (ho : 0 < o) (ha : 0 ≤ a) : 0 < alphaOf o a := by
  unfold alphaOf
  split_ifs with h
  · norm_num
  · exact lt_of_le_of_ne (div_nonneg ha ho.le) (Ne.symm h)

/-- Scales computed by `apply_weight_scaling`, one per row. -/
def alphas (columnwise : Bool) (o : ℚ) (w : Mat) : Vec :=
  if columnwise then w.map fun r => alphaOf o (absMax r)
  else List.replicate w.length (alphaOf o (absMax (w.map absMax)))

theorem alphas_length (cw o w) : (alphas cw o w).length = w.length := by
  unfold alphas; cases cw <;> simp

theorem alphas_pos {cw o w} (ho : 0 < o) : ∀ a ∈ alphas cw o w, 0 < a := by
  unfold alphas
  cases cw
  · simp only [Bool.false_eq_true, if_false, List.mem_replicate]
    rintro a ⟨_, rfl⟩; exact alphaOf_pos ho (absMax_nonneg _)
  · simp only [if_true, List.mem_map]
    rintro a ⟨r, _, rfl⟩; exact alphaOf_pos ho (absMax_nonneg _)

/-- Rows divided by the entries of `s`. -/
def divRows (w : Mat) (s : Vec) : Mat := List.zipWith (fun r a => r.map (· / a)) w s

theorem applyWeightScaling_on {c t m w arg o} (hc : c.Valid) (h : Good c t) (hm : c.mapping = some m)
    (ho : effOmega m arg = some o) (hpos : 0 < o) (hw : w.length = c.outSize) :
    ∃ ms mls, applyWeightScaling w arg t =
        (.ok (divRows w (alphas m.columnwise o w)),
          { t with mappingScales := some ms, mappingLrScale := mls,
                   learned := t.learned.map fun l => l.map fun _ => 1 }) ∧
      FitsOut c ms ∧ expand c.outSize (some ms) = alphas m.columnwise o w ∧ mls ≠ 0 ∧
      (m.lrCompensation = false → mls = t.mappingLrScale) := by
  have ho' : omegaOf m arg = some o := by rw [← ho]; unfold omegaOf effOmega; cases arg <;> rfl
  have hm' : t.cfg.mapping = some m := by rw [h.cfg]; exact hm
  unfold applyWeightScaling
  simp only [bind, Op.bind, Op.get, hm', ho', gt_iff_lt, hpos, if_true]
  cases hcw : m.columnwise with
  | true =>
    have hf : FitsOut c (w.map fun r => alphaOf o (absMax r)) := by right; simpa using hw
    have hp : ∀ x ∈ (w.map fun r => alphaOf o (absMax r)), 0 < x := by
      have := alphas_pos (cw := true) (o := o) (w := w) hpos
      simpa [alphas] using this
    obtain ⟨ms, mls, he, hfit, hfac, hne, hlr⟩ := setScales_tensor_pos hc h hm hf hp
    refine ⟨ms, mls, ?_, hfit, ?_, hne, hlr⟩
    · simp only [if_true, alphaOf] at he ⊢
      simp only [Op.bind, he]; rfl
    · have e : expand c.outSize (some ms) = expand c.outSize (some (w.map fun r => alphaOf o (absMax r))) := by
        unfold expand; apply List.map_congr_left; intro i hi; exact hfac i (by simpa using hi)
      rw [e, expand_full (by simpa using hw)]; simp [alphas]
  | false =>
    have hf : FitsOut c [alphaOf o (absMax (w.map absMax))] := by left; rfl
    have hp : ∀ x ∈ [alphaOf o (absMax (w.map absMax))], 0 < x := by
      simpa using alphaOf_pos hpos (absMax_nonneg _)
    obtain ⟨ms, mls, he, hfit, hfac, hne, hlr⟩ := setScales_tensor_pos hc h hm hf hp
    refine ⟨ms, mls, ?_, hfit, ?_, hne, hlr⟩
    · simp only [Bool.false_eq_true, if_false, alphaOf] at he ⊢
      simp only [Op.bind, he]
      simp [divRows, alphas, zipWith_replicate, alphaOf]
    · have e : expand c.outSize (some ms) = expand c.outSize (some [alphaOf o (absMax (w.map absMax))]) := by
        unfold expand; apply List.map_congr_left; intro i hi; exact hfac i (by simpa using hi)
      rw [e, expand_single]; simp [alphas, hw]

theorem applyWeightScaling_off {t : Tile} {w arg}
    (ho : ∀ m, t.cfg.mapping = some m → ∀ o, effOmega m arg = some o → o ≤ 0) :
    applyWeightScaling w arg t = (.ok w, t) := by
  unfold applyWeightScaling
  simp only [bind, Op.bind, Op.get]
  cases hm : t.cfg.mapping with
  | none => rfl
  | some m =>
    have hh := ho m hm
    have e : omegaOf m arg = effOmega m arg := by unfold omegaOf effOmega; cases arg <;> rfl
    simp only [e]
    cases hg : effOmega m arg with
    | none => rfl
    | some o =>
      have := hh o hg
      simp only [gt_iff_lt, not_lt.2 this, if_false]; rfl

theorem scaleRows_divRows {w : Mat} {s : Vec} (h : w.length = s.length) (hs : ∀ a ∈ s, a ≠ 0) :
    scaleRows (divRows w s) s = w := by
  induction w generalizing s with
  | nil => simp [scaleRows, divRows]
  | cons r w ih =>
    cases s with
    | nil => simp at h
    | cons a s =>
      have ha := hs a (by simp)
      have hi := ih (s := s) (by simpa using h) (fun x hx => hs x (List.mem_cons_of_mem _ hx))
      simp only [scaleRows, divRows, List.zipWith_cons_cons] at hi ⊢
      rw [hi]
      congr 1
      rw [List.map_map]
      conv_rhs => rw [← List.map_id r]
      apply List.map_congr_left
      intro x _
      simp only [Function.comp, id]
      field_simp

/-- Every scaled entry is at most `o` in magnitude. -/
theorem divRows_alphas_le {cw o w} (ho : 0 < o) :
    ∀ r ∈ divRows w (alphas cw o w), ∀ x ∈ r, |x| ≤ o := by
  intro r hr x hx
  have key : ∀ (row : Vec) (M : ℚ), row ∈ w → absMax row ≤ M → ∀ y ∈ row, |y / alphaOf o M| ≤ o := by
    intro row M hrow hM y hy
    have h1 := abs_le_absMax hy
    have h0 : 0 ≤ M := le_trans (absMax_nonneg row) hM
    have hp := alphaOf_pos ho h0
    rw [abs_div, abs_of_pos hp, div_le_iff₀ hp]
    unfold alphaOf
    split_ifs with hz
    · have : M = 0 := by
        rcases div_eq_zero_iff.1 hz with h | h
        · exact h
        · exact absurd h ho.ne'
      have : |y| ≤ 0 := by linarith
      linarith
    · rw [mul_div_cancel₀ _ ho.ne']; linarith
  unfold divRows at hr
  cases cw with
  | false =>
    simp only [alphas, Bool.false_eq_true, if_false, zipWith_replicate, List.mem_map] at hr
    obtain ⟨row, hrow, rfl⟩ := hr
    simp only [List.mem_map] at hx
    obtain ⟨y, hy, rfl⟩ := hx
    refine key row _ hrow ?_ y hy
    have := abs_le_absMax (v := w.map absMax) (a := absMax row) (List.mem_map_of_mem hrow)
    rwa [abs_of_nonneg (absMax_nonneg _)] at this
  | true =>
    simp only [alphas, if_true] at hr
    rw [List.zipWith_map_right, List.zipWith_self, List.mem_map] at hr
    obtain ⟨row, hrow, rfl⟩ := hr
    simp only [List.mem_map] at hx
    obtain ⟨y, hy, rfl⟩ := hx
    exact key row _ hrow le_rfl y hy

theorem devWrite_id {c : Cfg} {w : Mat} {o : ℚ} (hb : ∀ B, c.devBound = some B → o ≤ B)
    (hw : ∀ r ∈ w, ∀ x ∈ r, |x| ≤ o) : devWrite c w = w := by
  unfold devWrite
  cases hB : c.devBound with
  | none => rfl
  | some B =>
    simp only
    conv_rhs => rw [← List.map_id w]
    apply List.map_congr_left
    intro r hr
    simp only [id]
    conv_rhs => rw [← List.map_id r]
    apply List.map_congr_left
    intro x hx
    have h1 := hw r hr x hx
    have h2 := hb B hB
    have h3 := abs_le.1 (le_trans h1 h2)
    exact clamp_of_mem h3.1 h3.2

end Aihw.Periphery
