import Verif.Periphery.Lemmas3
import Mathlib.Algebra.Order.BigOperators.Group.List

/-!
# Properties C10–C13, C31: weight write/read, scales, bias layout
-/
namespace Aihw.Periphery

theorem rowFactors_after {c : Cfg} (hc : c.Valid) {t : Tile} (ht : t.cfg = c) {ms : Vec} {l : Option Vec}
    (hms : t.mappingScales = some ms) (hl : t.learned = l.map fun l => l.map fun _ => 1)
    (hfit : ∀ v, l = some v → FitsOut c v) : rowFactors t = expand c.outSize (some ms) := by
  unfold rowFactors expand
  rw [ht]
  apply List.map_congr_left
  intro i hi
  rw [hms, hl, factor_learned_reset hc l hfit i (by simpa using hi), mul_one]

theorem divRows_alphas_attained {cw : Bool} {o : ℚ} {w : Mat} (ho : 0 < o) :
    (cw = true → ∀ r ∈ divRows w (alphas cw o w), (∃ x ∈ r, x ≠ 0) → ∃ x ∈ r, |x| = o) ∧
    (cw = false → (∃ r ∈ divRows w (alphas cw o w), ∃ x ∈ r, x ≠ 0) →
      ∃ r ∈ divRows w (alphas cw o w), ∃ x ∈ r, |x| = o) := by
  have key : ∀ (y M : ℚ), |y| = M → M ≠ 0 → |y / alphaOf o M| = o := by
    intro y M hy hM
    have h0 : 0 < M := lt_of_le_of_ne (hy ▸ abs_nonneg y) (Ne.symm hM)
    have : M / o ≠ 0 := by positivity
    unfold alphaOf
    rw [if_neg this, abs_div, hy, abs_of_pos (by positivity)]
    field_simp
  constructor
  · rintro rfl r hr ⟨x, hx, hx0⟩
    unfold divRows at hr
    simp only [alphas, if_true] at hr
    rw [List.zipWith_map_right, List.zipWith_self, List.mem_map] at hr
    obtain ⟨row, hrow, rfl⟩ := hr
    simp only [List.mem_map] at hx
    obtain ⟨y, hy, rfl⟩ := hx
    have hne : row ≠ [] := List.ne_nil_of_mem hy
    obtain ⟨a, ha, hmax⟩ := absMax_mem hne
    have hy0 : y ≠ 0 := by rintro rfl; simp at hx0
    have : absMax row ≠ 0 := by
      have h1 := abs_le_absMax hy
      have h2 := abs_pos.2 hy0
      linarith
    exact ⟨a / alphaOf o (absMax row), List.mem_map_of_mem ha, key a _ hmax.symm this⟩
  · rintro rfl ⟨r, hr, x, hx, hx0⟩
    unfold divRows at hr ⊢
    simp only [alphas, Bool.false_eq_true, if_false, zipWith_replicate, List.mem_map] at hr ⊢
    obtain ⟨row, hrow, rfl⟩ := hr
    simp only [List.mem_map] at hx
    obtain ⟨y, hy, rfl⟩ := hx
    have hy0 : y ≠ 0 := by rintro rfl; simp at hx0
    have hne : w.map absMax ≠ [] := by
      intro h; rw [List.map_eq_nil_iff] at h; subst h; simp at hrow
    obtain ⟨a, ha, hmax⟩ := absMax_mem hne
    obtain ⟨row', hrow', rfl⟩ := List.mem_map.1 ha
    have hrne : absMax (w.map absMax) ≠ 0 := by
      have h1 := abs_le_absMax hy
      have h2 := abs_pos.2 hy0
      have h3 := abs_le_absMax (v := w.map absMax) (List.mem_map_of_mem hrow)
      rw [abs_of_nonneg (absMax_nonneg row)] at h3
      linarith
    rw [abs_of_nonneg (absMax_nonneg _)] at hmax
    have hr' : row' ≠ [] := by
      rintro rfl
      apply hrne; rw [hmax]; rfl
    obtain ⟨z, hz, hzmax⟩ := absMax_mem hr'
    refine ⟨_, ⟨row', hrow', rfl⟩, z / alphaOf o (absMax (w.map absMax)), List.mem_map_of_mem hz, ?_⟩
    exact key z _ (by rw [← hzmax, hmax]) hrne

/-- **C10** (round trip). On any tile with a mapping configuration, reached by any sequence of API calls,
`set_weights(W, b, omega)` with an effective omega in `(0, device bound]` succeeds, and `get_weights()`
then returns exactly `W` and the bias. -/
theorem C10_round_trip (c : Cfg) (hc : c.Valid) (calls : List Call) (hcalls : ∀ k ∈ calls, k.Valid c)
    (W : Mat) (b : Option Vec) (hW : IsMat c.outSize c.inSize W) (hb : BiasOk c b)
    (m : MappingPars) (hm : c.mapping = some m) (arg : Option ℚ) (o : ℚ)
    (ho : effOmega m arg = some o) (hpos : 0 < o) (hdev : ∀ B, c.devBound = some B → o ≤ B) :
    (setWeights W b true arg (run c calls)).1 = .ok () ∧
      getWeights (setWeights W b true arg (run c calls)).2 true =
        .ok (W, biasAfter c (run c calls).bias b) := by
  have ht := run_good hc hcalls
  obtain ⟨ms, mls, he, hfit, hexp⟩ := setWeights_on hc ht hm ho hpos hW hb
  have ht' : Good c (setWeights W b true arg (run c calls)).2 :=
    step_good hc ht (k := .setWeights W b true arg) trivial
  refine ⟨by rw [he], ?_⟩
  rw [getWeights_via hc ht' hW hb]
  · congr 2
    unfold biasAfter
    cases ha : c.analogBias with
    | true => simp
    | false =>
      simp only [Bool.false_eq_true, if_false, storedBias, ht'.cfg, ha]
      rw [he]
      cases hd : c.digitalBias <;> simp [newBias, hd]
  · have hrf := rowFactors_after hc ht'.cfg (ms := ms) (l := (run c calls).learned) (by rw [he])
      (by rw [he]) ht.ls
    rw [hrf, hexp, he]
    show scaleRows (devWrite c _) _ = _
    rw [devWrite_id hdev (divRows_alphas_le hpos)]
    exact scaleRows_divRows (alphas_length _ _ _).symm fun a ha => (alphas_pos hpos a ha).ne'

/-- **C10** (stored weights). After such a write all crossbar weights are bounded by omega; column-wise
scaling brings every non-zero row, layer-wise scaling the non-zero matrix, exactly to omega; a zero row
(column-wise), or the zero matrix (layer-wise), has digital factor 1. -/
theorem C10_stored_max (c : Cfg) (hc : c.Valid) (calls : List Call) (hcalls : ∀ k ∈ calls, k.Valid c)
    (W : Mat) (b : Option Vec) (hW : IsMat c.outSize c.inSize W) (hb : BiasOk c b)
    (m : MappingPars) (hm : c.mapping = some m) (arg : Option ℚ) (o : ℚ)
    (ho : effOmega m arg = some o) (hpos : 0 < o) (hdev : ∀ B, c.devBound = some B → o ≤ B) :
    let t' := (setWeights W b true arg (run c calls)).2
    (∀ r ∈ t'.w, ∀ x ∈ r, |x| ≤ o) ∧
    (m.columnwise = true → ∀ r ∈ t'.w, (∃ x ∈ r, x ≠ 0) → ∃ x ∈ r, |x| = o) ∧
    (m.columnwise = false → (∃ r ∈ t'.w, ∃ x ∈ r, x ≠ 0) → ∃ r ∈ t'.w, ∃ x ∈ r, |x| = o) ∧
    (m.columnwise = true → ∀ i < c.outSize, (∀ x ∈ t'.w.getD i [], x = 0) →
      factor t'.mappingScales i = 1) ∧
    (m.columnwise = false → (∀ r ∈ t'.w, ∀ x ∈ r, x = 0) →
      ∀ i < c.outSize, factor t'.mappingScales i = 1) := by
  have ht := run_good hc hcalls
  obtain ⟨ms, mls, he, hfit, hexp⟩ := setWeights_on hc ht hm ho hpos hW hb
  have hjl := (joined_combined hW hb).1
  have hdw : devWrite c (divRows (joined c W b) (alphas m.columnwise o (joined c W b))) =
      divRows (joined c W b) (alphas m.columnwise o (joined c W b)) :=
    devWrite_id hdev (divRows_alphas_le hpos)
  have hfac : ∀ i < c.outSize, factor (some ms) i = (alphas m.columnwise o (joined c W b)).getD i 0 := by
    intro i hi
    rw [← hexp, List.getD_eq_getElem _ _ (by rw [expand_length]; exact hi), expand_getElem]
  have hz : ∀ row : Vec, (∀ x ∈ row, x = 0) → absMax row = 0 := fun row h =>
    le_antisymm (absMax_le le_rfl fun a ha => by rw [h a ha]; simp) (absMax_nonneg _)
  have ha1 : alphaOf o 0 = 1 := by simp [alphaOf]
  simp only [he, hdw]
  refine ⟨divRows_alphas_le hpos, fun h => ?_, fun h => ?_, fun h i hi hzero => ?_, fun h hzero i hi => ?_⟩
  · rw [h]; exact (divRows_alphas_attained hpos).1 rfl
  · rw [h]; exact (divRows_alphas_attained hpos).2 rfl
  · rw [hfac i hi, h]
    have hij : i < (joined c W b).length := by omega
    rw [h, List.getD_eq_getElem _ _ (by simp [divRows, alphas_length]; omega)] at hzero
    simp only [divRows, List.getElem_zipWith] at hzero
    have : absMax (joined c W b)[i] = 0 := by
      apply hz
      intro x hx
      have h1 := hzero _ (List.mem_map_of_mem hx)
      rcases div_eq_zero_iff.1 h1 with h2 | h2
      · exact h2
      · exact absurd h2 (alphas_pos hpos _ (List.getElem_mem _)).ne'
    rw [List.getD_eq_getElem _ _ (by rw [alphas_length]; exact hij)]
    simp [alphas, this, ha1]
  · rw [hfac i hi, h]
    have hij : i < (joined c W b).length := by omega
    have : absMax ((joined c W b).map absMax) = 0 := by
      apply hz
      intro x hx
      obtain ⟨row, hrow, rfl⟩ := List.mem_map.1 hx
      apply hz
      intro y hy
      rw [h] at hzero
      have hmem : row.map (· / alphaOf o (absMax ((joined c W b).map absMax))) ∈
          divRows (joined c W b) (alphas false o (joined c W b)) := by
        simp only [divRows, alphas, Bool.false_eq_true, if_false, zipWith_replicate]
        exact List.mem_map_of_mem hrow
      have h1 := hzero _ hmem _ (List.mem_map_of_mem hy)
      rcases div_eq_zero_iff.1 h1 with h2 | h2
      · exact h2
      · exact absurd h2 (alphaOf_pos hpos (absMax_nonneg _)).ne'
    rw [List.getD_eq_getElem _ _ (by rw [alphas_length]; exact hij)]
    simp [alphas, this, ha1]

/-- A 2×2 tile with column-wise scaling, learned out scales and a digital bias. -/
def exCfg : Cfg :=
  { outSize := 2, inSize := 2, digitalBias := true,
    mapping := some { omega := some (3 / 5), columnwise := true, learnOutScaling := true },
    devBound := some (3 / 5) }

/-- Non-vacuity of C10: all hypotheses hold for a concrete configuration, history and matrix with a zero
row, and the stored weights and scales are as expected. -/
example :
    let calls := [Call.setScales (.tensor [5, 7]), .setLearnedOutScales [2], .setScales (.float 3)]
    exCfg.Valid ∧ (∀ k ∈ calls, k.Valid exCfg) ∧ IsMat 2 2 [[3, -6], [0, 0]] ∧
      BiasOk exCfg (some [1, 2]) ∧ effOmega { omega := some (3 / 5), columnwise := true } none = some (3 / 5) ∧
      (setWeights [[3, -6], [0, 0]] (some [1, 2]) true none (run exCfg calls)).2.w =
        [[3 / 10, -3 / 5], [0, 0]] ∧
      (setWeights [[3, -6], [0, 0]] (some [1, 2]) true none (run exCfg calls)).2.mappingScales =
        some [10, 1] := by
  refine ⟨⟨by decide, by decide, by decide⟩, ?_, ⟨rfl, by decide⟩, ?_, rfl, by decide +kernel, by decide +kernel⟩
  · intro k hk
    simp only [List.mem_cons, List.not_mem_nil, or_false] at hk
    rcases hk with rfl | rfl | rfl
    · right; rfl
    · trivial
    · trivial
  · intro _; rfl

/-- **C11** (stale scales). If no scaling happens on the write (flag off, no mapping, omega absent or
non-positive), the raw read returns `W`, `b` unchanged while the scaled read multiplies by the factors the
tile had *before* the write. -/
theorem C11_stale_scales (c : Cfg) (hc : c.Valid) (calls : List Call) (hcalls : ∀ k ∈ calls, k.Valid c)
    (W : Mat) (b : Option Vec) (hW : IsMat c.outSize c.inSize W) (hb : BiasOk c b)
    (s : Bool) (arg : Option ℚ)
    (hoff : s = false ∨ ∀ m, c.mapping = some m → ∀ o, effOmega m arg = some o → o ≤ 0)
    (hdev : ∀ B, c.devBound = some B → (∀ r ∈ W, ∀ x ∈ r, |x| ≤ B) ∧
      (c.analogBias = true → ∀ x ∈ b.getD [], |x| ≤ B)) :
    let t := run c calls
    let t' := (setWeights W b s arg t).2
    (setWeights W b s arg t).1 = .ok () ∧
    getWeights t' false = .ok (W, biasAfter c t.bias b) ∧
    getWeights t' true = .ok (scaleRows W (rowFactors t),
      if c.analogBias then b.map fun v => List.zipWith (· * ·) v (rowFactors t)
      else biasAfter c t.bias b) := by
  intro t t'
  have ht := run_good hc hcalls
  have he := setWeights_off hc ht hoff hW hb
  have ht' : Good c t' := step_good hc ht (k := .setWeights W b s arg) trivial
  have hdw : devWrite c (joined c W b) = joined c W b := by
    cases hB : c.devBound with
    | none => simp [devWrite, hB]
    | some B =>
      refine devWrite_id (o := B) (fun B' h => by rw [hB] at h; cases h; exact le_rfl) ?_
      obtain ⟨h1, h2⟩ := hdev B hB
      unfold joined
      cases ha : c.analogBias with
      | false => simpa using h1
      | true =>
        simp only [if_true]
        intro r hr x hx
        rw [List.mem_iff_getElem] at hr
        obtain ⟨k, hk, rfl⟩ := hr
        simp only [List.length_zipWith] at hk
        simp only [List.getElem_zipWith, List.mem_append, List.mem_singleton] at hx
        rcases hx with hx | rfl
        · exact h1 _ (List.getElem_mem (by omega)) x hx
        · exact h2 ha _ (List.getElem_mem (by omega))
  have hw' : t'.w = joined c W b := by
    show (setWeights W b s arg (run c calls)).2.w = _
    rw [he]; exact hdw
  have hj := joined_split hW hb t' ht'.cfg hw'
  have hsb : storedBias t' = biasAfter c t.bias b := by
    unfold storedBias biasAfter
    rw [ht'.cfg]
    have hbias : t'.bias = newBias c t.bias b := by
      show (setWeights W b s arg (run c calls)).2.bias = _
      rw [he]
    cases ha : c.analogBias <;> cases hd : c.digitalBias
    · simp
    · simp [hbias, newBias, hd]
    · simpa using hj.2 ha
    · exact (hc.bias_excl ⟨ha, hd⟩).elim
  have hrf : rowFactors t' = rowFactors t := by
    show rowFactors (setWeights W b s arg (run c calls)).2 = _
    rw [he]; rfl
  refine ⟨?_, ?_, ?_⟩
  · show (setWeights W b s arg (run c calls)).1 = _
    rw [he]
  · rw [getWeights_raw, hj.1, hsb]
  · rw [getWeights_scaled hc ht', hj.1, hsb, hrf]
    cases ha : c.analogBias with
    | false => simp
    | true => simp [biasAfter, ha]

theorem zipWith_smul_eq_self {W : Mat} {s : Vec} (h : W.length = s.length) :
    scaleRows W s = W ↔ ∀ i, (hi : i < W.length) → s.getD i 0 = 1 ∨ ∀ x ∈ W[i], x = 0 := by
  have aux : ∀ (r : Vec) (a : ℚ), r.map (a * ·) = r ↔ a = 1 ∨ ∀ x ∈ r, x = 0 := by
    intro r a
    constructor
    · intro e
      by_cases ha : a = 1
      · left; exact ha
      · right
        intro x hx
        have e' : r.map (a * ·) = r.map id := by simpa using e
        have := List.map_inj_left.1 e' x hx
        have h2 : (a - 1) * x = 0 := by simp only [id] at this; linarith
        rcases mul_eq_zero.1 h2 with h3 | h3
        · exact absurd (by linarith) ha
        · exact h3
    · rintro (rfl | hz)
      · simp
      · conv_rhs => rw [← List.map_id r]
        apply List.map_congr_left
        intro x hx; rw [hz x hx]; simp
  constructor
  · intro e i hi
    have h1 : (scaleRows W s)[i]'(by simp [scaleRows]; omega) = W[i] := by simp only [e]
    simp only [scaleRows, List.getElem_zipWith] at h1
    rw [List.getD_eq_getElem _ _ (by omega)]
    exact (aux _ _).1 h1
  · intro hh
    apply List.ext_getElem
    · simp [scaleRows, h]
    · intro i h1 h2
      have := hh i h2
      rw [List.getD_eq_getElem _ _ (by omega)] at this
      simp only [scaleRows, List.getElem_zipWith]
      exact (aux _ _).2 this

/-- **C11** (exactly when it is still a round trip): on a tile without analog bias the unscaled write is read
back by the scaled read iff every row has stale factor 1 or is zero. -/
theorem C11_round_trip_iff (c : Cfg) (hc : c.Valid) (hna : c.analogBias = false) (calls : List Call)
    (hcalls : ∀ k ∈ calls, k.Valid c)
    (W : Mat) (b : Option Vec) (hW : IsMat c.outSize c.inSize W) (hb : BiasOk c b)
    (s : Bool) (arg : Option ℚ)
    (hoff : s = false ∨ ∀ m, c.mapping = some m → ∀ o, effOmega m arg = some o → o ≤ 0)
    (hdev : ∀ B, c.devBound = some B → ∀ r ∈ W, ∀ x ∈ r, |x| ≤ B) :
    let t := run c calls
    (getWeights (setWeights W b s arg t).2 true = .ok (W, biasAfter c t.bias b) ↔
      ∀ i, (hi : i < W.length) →
        factor t.mappingScales i * factor t.learned i = 1 ∨ ∀ x ∈ W[i], x = 0) := by
  intro t
  have ht := run_good hc hcalls
  obtain ⟨_, _, h3⟩ := C11_stale_scales c hc calls hcalls W b hW hb s arg hoff
    (fun B hB => ⟨hdev B hB, by simp [hna]⟩)
  have hl : W.length = (rowFactors t).length := by simp [rowFactors, hW.1, ht.cfg, t]
  have e : getWeights (setWeights W b s arg t).2 true = .ok (W, biasAfter c t.bias b) ↔
      scaleRows W (rowFactors t) = W := by
    show getWeights (setWeights W b s arg (run c calls)).2 true = _ ↔ _
    rw [h3]
    simp [hna, t]
  rw [e, zipWith_smul_eq_self hl]
  refine forall_congr' fun i => forall_congr' fun hi => ?_
  rw [List.getD_eq_getElem _ _ (by omega)]
  simp [rowFactors]

/-- Non-vacuity of C11, and a witness that the stale factor is visible: after a scaled write, writing with
`apply_weight_scaling=False` reads back multiplied by 10. -/
example :
    let c : Cfg := { outSize := 1, inSize := 2, mapping := some { omega := some 1 } }
    let calls := [Call.setWeights [[10, 2]] none true none]
    c.Valid ∧ (∀ k ∈ calls, k.Valid c) ∧ IsMat 1 2 [[3, 4]] ∧ BiasOk c none ∧
      getWeights (setWeights [[3, 4]] none false none (run c calls)).2 true = .ok ([[30, 40]], none) := by
  refine ⟨⟨by decide, by decide, by decide⟩, ?_, ⟨rfl, by decide⟩, rfl, by decide +kernel⟩
  intro k hk
  simp only [List.mem_cons, List.not_mem_nil, or_false] at hk
  rw [hk]; trivial

/-- **C12** (tile level). `remap_weights` succeeds and leaves the logical weights and bias unchanged on
every reachable tile; the crossbar weights end up as described by `C10_stored_max`. -/
theorem C12_remap (c : Cfg) (hc : c.Valid) (calls : List Call) (hcalls : ∀ k ∈ calls, k.Valid c)
    (m : MappingPars) (hm : c.mapping = some m) (arg : Option ℚ) (o : ℚ)
    (ho : effOmega m arg = some o) (hpos : 0 < o) (hdev : ∀ B, c.devBound = some B → o ≤ B) :
    let t := run c calls
    (remapWeights arg t).1 = .ok () ∧
      getWeights (remapWeights arg t).2 true = getWeights t true ∧
      (∀ r ∈ (remapWeights arg t).2.w, ∀ x ∈ r, |x| ≤ o) ∧
      (m.columnwise = true → ∀ r ∈ (remapWeights arg t).2.w, (∃ x ∈ r, x ≠ 0) → ∃ x ∈ r, |x| = o) ∧
      (m.columnwise = false → (∃ r ∈ (remapWeights arg t).2.w, ∃ x ∈ r, x ≠ 0) →
        ∃ r ∈ (remapWeights arg t).2.w, ∃ x ∈ r, |x| = o) := by
  intro t
  have ht : Good c t := run_good hc hcalls
  have hrf : (rowFactors t).length = c.outSize := by simp [rowFactors, ht.cfg]
  have hsw := storedWeights_isMat ht
  have hg := getWeights_scaled hc ht
  set W := scaleRows (storedWeights t) (rowFactors t) with hWdef
  set b := (if c.analogBias then (storedBias t).map fun b => List.zipWith (· * ·) b (rowFactors t)
      else storedBias t) with hbdef
  have hW : IsMat c.outSize c.inSize W := scaleRows_isMat hsw (by rw [hrf, hsw.1])
  have hsbl := storedBias_length ht
  have hb : BiasOk c b := by
    unfold BiasOk
    cases hb' : b with
    | none =>
      cases ha : c.analogBias with
      | false => rfl
      | true =>
        rw [hbdef] at hb'
        have hd : c.digitalBias = false := by
          cases hd : c.digitalBias with
          | false => rfl
          | true => exact (hc.bias_excl ⟨ha, hd⟩).elim
        simp [ha, storedBias, ht.cfg, hd] at hb'
    | some v =>
      intro _
      rw [hbdef] at hb'
      split_ifs at hb' with ha
      · simp only [Option.map_eq_some_iff] at hb'
        obtain ⟨u, hu, rfl⟩ := hb'
        simp [hsbl u hu, hrf]
      · exact hsbl v hb'
  have hre : remapWeights arg t = setWeights W b true arg t := by
    unfold remapWeights
    simp only [Bind.bind, Op.bind, Op.get, Op.lift]
    rw [hg]
  obtain ⟨h1, h2⟩ := C10_round_trip c hc calls hcalls W b hW hb m hm arg o ho hpos hdev
  obtain ⟨h3, h4, h5, _, _⟩ := C10_stored_max c hc calls hcalls W b hW hb m hm arg o ho hpos hdev
  rw [hre]
  refine ⟨h1, ?_, h3, h4, h5⟩
  rw [h2, hg]
  congr 2
  unfold biasAfter
  cases ha : c.analogBias with
  | true => simp
  | false =>
    rw [hbdef]
    cases hd : c.digitalBias <;> simp [ha, storedBias, ht.cfg, hd, t]

/-- **C12** (exception). If the effective omega is absent or non-positive, `remap_weights` does *not*
preserve the logical weights: the stale factors are applied twice. -/
theorem C12_remap_off_squares_scales (c : Cfg) (hc : c.Valid) (hna : c.analogBias = false)
    (hnd : c.devBound = none) (calls : List Call)
    (hcalls : ∀ k ∈ calls, k.Valid c) (arg : Option ℚ)
    (hoff : ∀ m, c.mapping = some m → ∀ o, effOmega m arg = some o → o ≤ 0) :
    let t := run c calls
    ∃ W b, getWeights t true = .ok (W, b) ∧
      ∃ b', getWeights (remapWeights arg t).2 true = .ok (scaleRows W (rowFactors t), b') := by
  intro t
  have ht : Good c t := run_good hc hcalls
  have hrf : (rowFactors t).length = c.outSize := by simp [rowFactors, ht.cfg]
  have hsw := storedWeights_isMat ht
  have hg := getWeights_scaled hc ht
  have hW : IsMat c.outSize c.inSize (scaleRows (storedWeights t) (rowFactors t)) :=
    scaleRows_isMat hsw (by rw [hrf, hsw.1])
  simp only [hna, Bool.false_eq_true, if_false] at hg
  have hb : BiasOk c (storedBias t) := by
    unfold BiasOk
    cases hb' : storedBias t with
    | none => exact hna
    | some v => intro _; exact storedBias_length ht v hb'
  refine ⟨_, _, hg, ?_⟩
  have hre : remapWeights arg t = setWeights (scaleRows (storedWeights t) (rowFactors t)) (storedBias t) true arg t := by
    unfold remapWeights
    simp only [Bind.bind, Op.bind, Op.get, Op.lift]
    rw [hg]
  obtain ⟨_, _, h3⟩ := C11_stale_scales c hc calls hcalls _ _ hW hb true arg (Or.inr hoff)
    (fun B hB => by rw [hnd] at hB; cases hB)
  rw [hre]
  exact ⟨_, h3⟩

/-- Non-vacuity of C12 (both cases): logical weight 6 stored as 2 with scale 3 survives `remap(1)` but
becomes 18 under `remap(None)` with the default configuration (omega = 0). -/
example :
    let c : Cfg := { outSize := 1, inSize := 1, mapping := some { omega := some 0 } }
    let calls := [Call.setWeights [[2]] none false none, .setScales (.tensor [3])]
    c.Valid ∧ (∀ k ∈ calls, k.Valid c) ∧
      getWeights (run c calls) true = .ok ([[6]], none) ∧
      getWeights (remapWeights (some 1) (run c calls)).2 true = .ok ([[6]], none) ∧
      getWeights (remapWeights none (run c calls)).2 true = .ok ([[18]], none) := by
  refine ⟨⟨by decide, by decide, by decide⟩, ?_, by decide +kernel, by decide +kernel, by decide +kernel⟩
  intro k hk
  simp only [List.mem_cons, List.not_mem_nil, or_false] at hk
  rcases hk with rfl | rfl
  · trivial
  · left; rfl

/-- **C13** (tensor). `set_scales(v)` with a fitting tensor, from any history, succeeds unless learning-rate
compensation meets a zero mean; then the tile's total digital factor of row `i` is `v[i]` (or the single
entry), and `get_scales()` returns exactly these factors. -/
theorem C13_set_scales_tensor (c : Cfg) (hc : c.Valid) (calls : List Call)
    (hcalls : ∀ k ∈ calls, k.Valid c) (m : MappingPars) (hm : c.mapping = some m) (v : Vec)
    (hv : FitsOut c v)
    (hok : m.lrCompensation = false ∨
      (∃ i < c.outSize, factor (some v) i ≠ 0) ∧ ∀ i < c.outSize, 0 ≤ factor (some v) i) :
    let r := setScales (.tensor v) (run c calls)
    r.1 = .ok () ∧
      (∃ u, getScales r.2 = .ok (some u) ∧ FitsOut c u ∧
        ∀ i < c.outSize, factor (some u) i = factor (some v) i) ∧
      (∀ i < c.outSize, factor r.2.learned i = 1) := by
  have ht : Good c (run c calls) := run_good hc hcalls
  have hm' : (run c calls).cfg.mapping = some m := by rw [ht.cfg]; exact hm
  have hg : Good c (setScales (.tensor v) (run c calls)).2 := (setScales_keeps hc _ (by rintro u ⟨⟩; exact hv) _ ht).1
  set t := run c calls
  have hfit := newScales_fits ht.ms hv
  have hfacN := newScales_factor hc (v := v) ht.ms
  have hmean : m.lrCompensation = true → mean (newScales t.mappingScales v) ≠ 0 := by
    intro hl
    rcases hok with h | ⟨⟨i, hi, hne⟩, hnn⟩
    · rw [hl] at h; cases h
    · have hall : ∀ x ∈ newScales t.mappingScales v, 0 ≤ x := by
        intro x hx
        rw [List.mem_iff_getElem] at hx
        obtain ⟨k, hk, rfl⟩ := hx
        have hk' : k < c.outSize := by
          rcases hfit with h | h
          · have := hc.out_pos; omega
          · omega
        have := hnn k hk'
        rw [← hfacN k hk'] at this
        simp only [factor] at this
        split_ifs at this with h1
        · have : k = 0 := by omega
          subst this
          rwa [List.getD_eq_getElem _ _ hk] at this
        · rwa [List.getD_eq_getElem _ _ hk] at this
      have hsum : ∀ l : Vec, (∀ x ∈ l, 0 ≤ x) → (∃ x ∈ l, x ≠ 0) → 0 < l.sum := by
        intro l
        induction l with
        | nil => rintro _ ⟨x, hx, _⟩; simp at hx
        | cons a l ih =>
          rintro hnn ⟨x, hx, hx0⟩
          have ha := hnn a (by simp)
          have hl : 0 ≤ l.sum := List.sum_nonneg fun x hx => hnn x (List.mem_cons_of_mem _ hx)
          simp only [List.sum_cons]
          rcases List.mem_cons.1 hx with rfl | hx
          · have : 0 < x := lt_of_le_of_ne ha (Ne.symm hx0)
            linarith
          · have := ih (fun x hx => hnn x (List.mem_cons_of_mem _ hx)) ⟨x, hx, hx0⟩
            linarith
      have hex : ∃ x ∈ newScales t.mappingScales v, x ≠ 0 := by
        rw [← hfacN i hi] at hne
        simp only [factor] at hne
        split_ifs at hne with h1
        · refine ⟨_, ?_, hne⟩
          rw [List.getD_eq_getElem _ _ (by omega)]
          exact List.getElem_mem _
        · have : i < (newScales t.mappingScales v).length := by rcases hfit with h | h <;> omega
          rw [List.getD_eq_getElem _ _ this] at hne
          exact ⟨_, List.getElem_mem _, hne⟩
      have h1 := hsum _ hall hex
      have hlen : (0 : ℚ) < (newScales t.mappingScales v).length := by
        have : 0 < (newScales t.mappingScales v).length := by
          rcases hfit with h | h <;> have := hc.out_pos <;> omega
        exact_mod_cast this
      unfold mean
      exact (div_pos h1 hlen).ne'
  have hres : (setScales (.tensor v) t).1 = .ok () ∧
      (setScales (.tensor v) t).2.mappingScales = some (newScales t.mappingScales v) ∧
      (setScales (.tensor v) t).2.learned = t.learned.map fun l => l.map fun _ => 1 := by
    unfold setScales
    simp only [Bind.bind, Op.bind, setMappingScales_tensor hm']
    cases hl : m.lrCompensation with
    | false => simp [setLearned_one]
    | true => simp [setLearned_one, hmean hl]
  obtain ⟨h1, h2, h3⟩ := hres
  have hl1 : ∀ i < c.outSize, factor (setScales (.tensor v) t).2.learned i = 1 := by
    intro i hi; rw [h3]; exact factor_learned_reset hc _ ht.ls i hi
  refine ⟨h1, ?_, hl1⟩
  obtain ⟨u, hu, hufit, hufac⟩ := getScales_good hg
  cases u with
  | none =>
    have := (getScales_none.1 hu).1
    rw [h2] at this; cases this
  | some u =>
    refine ⟨u, hu, hufit u rfl, ?_⟩
    intro i hi
    rw [hufac i hi, hl1 i hi, mul_one, h2, hfacN i hi]

/-- **C13** (float). `set_scales(q)` with a python float is silently ignored (apart from resetting learned
scales) as soon as the tile has mapping scales, whatever `q`; without mapping scales it sets all factors
to `q`. -/
theorem C13_set_scales_float (c : Cfg) (hc : c.Valid) (calls : List Call)
    (hcalls : ∀ k ∈ calls, k.Valid c) (m : MappingPars) (hm : c.mapping = some m)
    (hlr : m.lrCompensation = false) (q : ℚ) :
    let t := run c calls
    let r := setScales (.float q) t
    r.1 = .ok () ∧
      (∀ old, t.mappingScales = some old → r.2.mappingScales = some old) ∧
      (t.mappingScales = none → ∀ i, factor r.2.mappingScales i = q) ∧
      (∀ i < c.outSize, factor r.2.learned i = 1) := by
  intro t
  have ht : Good c t := run_good hc hcalls
  have hm' : t.cfg.mapping = some m := by rw [ht.cfg]; exact hm
  have e : setScales (.float q) t =
      (.ok (), { t with mappingScales := assignScales (.float q) t.mappingScales,
                        learned := t.learned.map fun l => l.map fun _ => 1 }) := by
    unfold setScales setMappingScales
    simp only [Bind.bind, Op.bind, Op.get, hm', Op.modify, hlr, Bool.false_eq_true, if_false, Pure.pure,
      Op.pure, setLearned_one]
  simp only [e]
  refine ⟨trivial, ?_, ?_, fun i hi => factor_learned_reset hc _ ht.ls i hi⟩
  · intro old hold; rw [hold]; rfl
  · intro hnone i; rw [hnone]; simp [assignScales, factor]

/-- **C13** (zero mean). With learning-rate compensation, scales of mean 0 raise ZeroDivisionError — after
the mapping scales have been replaced, but before the learned scales are reset. -/
theorem C13_zero_mean_raises (t : Tile) (m : MappingPars) (hm : t.cfg.mapping = some m)
    (hl : m.lrCompensation = true) (v : Vec) (h2 : v.length ≠ 1) (hz : v.sum = 0) :
    setScales (.tensor v) t = (.error .zeroDivision, { t with mappingScales := some v }) := by
  have hn : newScales t.mappingScales v = v := by
    unfold newScales; cases t.mappingScales <;> simp [h2]
  unfold setScales
  simp [Bind.bind, Op.bind, setMappingScales_tensor hm, hl, hn, mean, hz]

/-- Non-vacuity of C13: after `set_scales(tensor [2, 3])`, `set_scales(5.0)` changes nothing, and
`set_scales(tensor [5])` sets both factors to 5. -/
example :
    let calls := [Call.setScales (.tensor [2, 3])]
    (∀ k ∈ calls, k.Valid exCfg) ∧ FitsOut exCfg [5] ∧
      getScales (setScales (.float 5) (run exCfg calls)).2 = .ok (some [2, 3]) ∧
      getScales (setScales (.tensor [5]) (run exCfg calls)).2 = .ok (some [5, 5]) := by
  refine ⟨?_, Or.inl rfl, by decide +kernel, by decide +kernel⟩
  intro k hk
  simp only [List.mem_cons, List.not_mem_nil, or_false] at hk
  rw [hk]; right; rfl

/-- **C31** (layout). Combining weights with an analog bias and separating again returns both; without
analog bias the combination is the weight matrix itself. -/
theorem C31_combine_separate (c : Cfg) (W : Mat) (b : Option Vec) (hW : IsMat c.outSize c.inSize W)
    (hb : BiasOk c b) :
    ∃ cw, combineWeights c W b = .ok cw ∧ IsMat c.outSize (c.inSize + if c.analogBias then 1 else 0) cw ∧
      separateWeights c cw = (W, if c.analogBias then b else none) := by
  refine ⟨_, combineWeights_joined hW hb, joined_combined hW hb, ?_⟩
  have hj := joined_split hW hb { init c with w := joined c W b } rfl rfl
  unfold separateWeights
  unfold storedWeights at hj
  cases ha : c.analogBias with
  | false => simp [joined, ha]
  | true =>
    simp only [ha, if_true, init, forall_const] at hj ⊢
    rw [hj.1, hj.2]

/-- **C31** (missing bias). A tile with analog bias rejects `set_weights` without bias with a ValueError;
neither the crossbar, nor the scales, nor anything but the stored programming reference changes. -/
theorem C31_missing_bias (c : Cfg) (hab : c.analogBias = true) (t : Tile)
    (ht : t.cfg = c) (W : Mat) (hW : IsMat c.outSize c.inSize W) (s : Bool) (arg : Option ℚ) :
    setWeights W none s arg t = (.error .valueError, { t with reference := none }) := by
  have e : combineWeights c W none = .error .valueError := by
    unfold combineWeights
    rw [reshape_ok.2 ⟨rfl, hW⟩]
    simp [Bind.bind, Except.bind, hab]
  unfold setWeights
  simp only [Bind.bind, Op.bind, Op.modify, Op.get, Pure.pure, Op.pure, Op.lift, ht, e]

/-- **C31** (digital bias). On a tile with digital bias the bias given to a successful `set_weights` is
returned unscaled by every later read, scaled or not, whatever the scaling arguments and history. -/
theorem C31_digital_bias_exact (c : Cfg) (hc : c.Valid) (hd : c.digitalBias = true) (calls : List Call)
    (hcalls : ∀ k ∈ calls, k.Valid c) (W : Mat) (v : Vec) (hv : v.length = c.outSize)
    (s : Bool) (arg : Option ℚ) (hok : (setWeights W (some v) s arg (run c calls)).1 = .ok ())
    (scaled : Bool) :
    ∃ W', getWeights (setWeights W (some v) s arg (run c calls)).2 scaled = .ok (W', some v) := by
  have ht : Good c (run c calls) := run_good hc hcalls
  have hna : c.analogBias = false := by
    cases ha : c.analogBias with
    | false => rfl
    | true => exact (hc.bias_excl ⟨ha, hd⟩).elim
  by_cases hW : IsMat c.outSize c.inSize W
  · have hb : BiasOk c (some v) := fun _ => hv
    have ht' : Good c (setWeights W (some v) s arg (run c calls)).2 :=
      step_good hc ht (k := .setWeights W (some v) s arg) trivial
    have hbias : (setWeights W (some v) s arg (run c calls)).2.bias = v := by
      by_cases hon : s = true ∧ ∃ m, c.mapping = some m ∧ ∃ o, effOmega m arg = some o ∧ 0 < o
      · obtain ⟨rfl, m, hm, o, ho, hpos⟩ := hon
        obtain ⟨ms, mls, he, _, _⟩ := setWeights_on hc ht hm ho hpos hW hb
        rw [he]; simp [newBias, hd]
      · rw [setWeights_off hc ht ?_ hW hb]
        · simp [newBias, hd]
        · cases s with
          | false => left; rfl
          | true =>
            right
            intro m hm o ho
            by_contra h
            exact hon ⟨rfl, m, hm, o, ho, not_le.1 h⟩
    have hsb : storedBias (setWeights W (some v) s arg (run c calls)).2 = some v := by
      simp [storedBias, ht'.cfg, hd, hbias]
    cases scaled with
    | false => exact ⟨_, by rw [getWeights_raw, hsb]⟩
    | true =>
      have := getWeights_scaled hc ht'
      simp only [hsb, hna, Bool.false_eq_true, if_false] at this
      exact ⟨_, this⟩
  · exfalso
    have hr : reshape c.outSize c.inSize W = .error .runtimeError := by
      unfold reshape
      rw [if_neg]
      simpa [IsMat] using hW
    have e : combineWeights c W none = .error .runtimeError := by
      unfold combineWeights; rw [hr]; rfl
    unfold setWeights at hok
    simp [Bind.bind, Op.bind, Op.modify, Op.get, Pure.pure, Op.pure, Op.lift, ht.cfg, e, hd, hv] at hok

/-- **C31** (failed write). Because the digital bias is copied before the weights are checked, a
`set_weights` that raises on a wrong weight shape has already replaced the bias. -/
theorem C31_failed_write_replaces_bias (c : Cfg) (hd : c.digitalBias = true) (t : Tile) (ht : t.cfg = c)
    (W : Mat) (hW : ¬ IsMat c.outSize c.inSize W) (v : Vec) (hv : v.length = c.outSize)
    (s : Bool) (arg : Option ℚ) :
    setWeights W (some v) s arg t = (.error .runtimeError, { t with reference := none, bias := v }) := by
  have hr : reshape c.outSize c.inSize W = .error .runtimeError := by
    unfold reshape
    rw [if_neg]
    simpa [IsMat] using hW
  have e : combineWeights c W none = .error .runtimeError := by
    unfold combineWeights; rw [hr]; rfl
  unfold setWeights
  simp [Bind.bind, Op.bind, Op.modify, Op.get, Pure.pure, Op.pure, Op.lift, ht, e, hd, hv]

/-- Non-vacuity of C31: an analog-bias tile and a digital-bias tile on concrete values. -/
example :
    let ca : Cfg := { outSize := 2, inSize := 1, analogBias := true }
    combineWeights ca [[1], [2]] (some [3, 4]) = .ok [[1, 3], [2, 4]] ∧
      separateWeights ca [[1, 3], [2, 4]] = ([[1], [2]], some [3, 4]) ∧
      (setWeights [[1], [2]] none true none (init ca)).1 = .error .valueError ∧
      getWeights (setWeights [[1, 2], [3, 4]] (some [7, 8]) true none (run exCfg [])).2 true =
        .ok ([[1, 2], [3, 4]], some [7, 8]) := by
  refine ⟨by rfl, by rfl, by rfl, ?_⟩
  decide +kernel

end Aihw.Periphery
