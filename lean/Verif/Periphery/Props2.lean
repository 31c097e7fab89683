import Verif.Periphery.Props

/-!
# Properties C14–C16: forward, update and input range with the digital periphery
-/
namespace Aihw.Periphery

theorem clamp_eq_spec {r a : ℚ} (h : 0 ≤ r) : clamp (-r) r a = max (-r) (min r a) := by
  unfold clamp
  rcases le_total a r with h1 | h1 <;> rcases le_total (-r) a with h2 | h2 <;>
    simp [h1, h2] <;> linarith

/-- `apply_input_range` in closed form. -/
theorem applyInputRange_eq {t : Tile} {r : ℚ} {p : IRPars} (hr : t.inputRange = some r)
    (hp : t.cfg.inputRange = some p) (x : Vec) (std : ℚ) (f : Bool) :
    applyInputRange x std f t =
      (let t' := if f then irUpdate p std t else t
       (.ok (clippedInput (some (t'.inputRange.getD 0)) x), t')) := by
  unfold applyInputRange
  simp only [Bind.bind, Op.bind, Op.get, hr, hp, Op.modify, Pure.pure, Op.pure, clippedInput]
  congr 2
  apply List.map_congr_left
  intro a _
  exact clamp_eq_spec (abs_nonneg _)

theorem irUpdate_isSome {p std t} : (irUpdate p std t).inputRange.isSome = t.inputRange.isSome := by
  unfold irUpdate
  split_ifs <;> simp

/-- The tile after the pre-processing of a forward call. -/
def afterForward (t : Tile) (std : ℚ) (isTest : Bool) : Tile :=
  match t.inputRange, t.cfg.inputRange with
  | some _, some p => if isTest then t else irUpdate p std t
  | _, _ => t

theorem Good.ir_cases {c t} (h : Good c t) :
    (t.inputRange = none ∧ t.cfg.inputRange = none) ∨
      ∃ r p, t.inputRange = some r ∧ t.cfg.inputRange = some p := by
  have := h.ir
  rw [h.cfg]
  cases h1 : t.inputRange <;> cases h2 : c.inputRange <;> simp [h1, h2] at this ⊢

theorem preForward_eq {c t} (h : Good c t) (x : Vec) (std : ℚ) (isTest : Bool) :
    preForward x std isTest t =
      (let t' := afterForward t std isTest
       match t'.inputRange with
       | none => (.ok x, t')
       | some r => if r = 0 then (.error .nanInf, t') else
          (.ok ((clippedInput (some r) x).map (· / r)), t')) := by
  unfold preForward afterForward
  rcases h.ir_cases with ⟨h1, h2⟩ | ⟨r, p, h1, h2⟩
  · simp only [Bind.bind, Op.bind, Op.get, h1, h2, Pure.pure, Op.pure]
  · simp only [Bind.bind, Op.bind, Op.get, h1, h2, applyInputRange_eq h1 h2]
    have hs : (if isTest = true then t else irUpdate p std t).inputRange.isSome = true := by
      split_ifs
      · simp [h1]
      · rw [irUpdate_isSome, h1]; rfl
    have e : (if (!isTest) = true then irUpdate p std t else t) =
        (if isTest = true then t else irUpdate p std t) := by cases isTest <;> rfl
    simp only [e]
    obtain ⟨r', hr'⟩ := Option.isSome_iff_exists.1 hs
    simp only [hr', Option.getD_some]
    split_ifs <;> rfl

theorem afterForward_good {c t} (h : Good c t) (std : ℚ) (isTest : Bool) :
    Good c (afterForward t std isTest) := by
  unfold afterForward
  split
  · split_ifs
    · exact h
    · exact irUpdate_good h
  · exact h

theorem afterForward_fields (t : Tile) (std : ℚ) (isTest : Bool) :
    (afterForward t std isTest).cfg = t.cfg ∧ (afterForward t std isTest).w = t.w ∧
    (afterForward t std isTest).bias = t.bias ∧
    (afterForward t std isTest).mappingScales = t.mappingScales ∧
    (afterForward t std isTest).learned = t.learned := by
  unfold afterForward irUpdate
  split
  · split_ifs <;> simp
  · simp

theorem factor_map_mul (r : ℚ) (m : Vec) (i : Nat) :
    factor (some (m.map (r * ·))) i = r * factor (some m) i := by
  have : ∀ k, (m.map (r * ·)).getD k 0 = r * m.getD k 0 := by
    intro k
    have := List.getD_map (l := m) (n := k) (d := (0 : ℚ)) (f := (r * ·))
    simpa using this
  simp only [factor, List.length_map, this]
  split_ifs <;> rfl

/-- `post_forward` row by row. -/
theorem postForward_eq {c t} (h : Good c t) {y : Vec} (hy : y.length = c.outSize) :
    ∃ z, postForward t y = .ok z ∧ z.length = c.outSize ∧
      ∀ i < c.outSize, z.getD i 0 = y.getD i 0 * (t.inputRange.getD 1 * factor t.mappingScales i) := by
  have hz : ∀ (s : Option Vec), ∀ i < c.outSize,
      (List.zipWith (· * ·) y (expand c.outSize s)).getD i 0 = y.getD i 0 * factor s i := by
    intro s i hi
    rw [List.getD_eq_getElem _ _ (by simp [expand_length, hy]; exact hi),
      List.getD_eq_getElem _ _ (by omega)]
    simp [expand_getElem]
  unfold postForward
  cases hr : t.inputRange with
  | none =>
    cases hm : t.mappingScales with
    | none => exact ⟨y, rfl, hy, by simp [factor]⟩
    | some m =>
      have hb := bmul_eq hy (h.ms m hm)
      refine ⟨_, hb, by simp [expand_length, hy], ?_⟩
      intro i hi
      rw [hz _ i hi]; simp
  | some r =>
    cases hm : t.mappingScales with
    | none =>
      refine ⟨_, rfl, by simpa using hy, ?_⟩
      intro i hi
      rw [List.getD_eq_getElem _ _ (by simp; omega), List.getD_eq_getElem _ _ (by omega)]
      simp [factor]
    | some m =>
      have hfit : (m.map (r * ·)).length = 1 ∨ (m.map (r * ·)).length = c.outSize := by
        have := h.ms m hm; unfold FitsOut at this; simpa using this
      have hb := bmul_eq hy hfit
      refine ⟨_, hb, by simp [expand_length, hy], ?_⟩
      intro i hi
      rw [hz _ i hi, factor_map_mul]; simp

theorem dot_map_div (r : ℚ) (a b : Vec) : dot a (b.map (· / r)) = dot a b / r := by
  have : (b.map (· / r)) = b.map (r⁻¹ * ·) := by
    apply List.map_congr_left; intro x _; field_simp
  rw [this, dot_smul_right]; field_simp

/-- What the ideal crossbar contributes to output `i`. -/
theorem devForward_row {c t} (h : Good c t) {x : Vec} (hx : x.length = c.inSize) :
    ∃ y, devForward t x = .ok y ∧ y.length = c.outSize ∧ ∀ i < c.outSize,
      y.getD i 0 = dot ((storedWeights t).getD i []) x +
        (if c.analogBias then (t.w.getD i []).getLastD 0 else 0) := by
  unfold devForward
  rw [h.cfg, if_pos hx]
  refine ⟨_, rfl, by simp [matVec, h.w.1], ?_⟩
  intro i hi
  have hi' : i < t.w.length := by rw [h.w.1]; exact hi
  have hsl : (storedWeights t).length = c.outSize := (storedWeights_isMat h).1
  rw [List.getD_eq_getElem _ _ (by simp [matVec]; exact hi'), List.getD_eq_getElem _ _ (by rw [hsl]; exact hi),
    List.getD_eq_getElem _ _ hi']
  simp only [matVec, List.getElem_map]
  have hrow := h.w.2 _ (List.getElem_mem hi')
  have hss : storedWeights t = if c.analogBias then t.w.map List.dropLast else t.w := by
    unfold storedWeights; rw [h.cfg]
  simp only [hss]
  by_cases ha : c.analogBias = true
  swap
  · simp [ha]
  · simp only [ha, if_true] at hrow ⊢
    have hne : t.w[i] ≠ [] := by intro h0; rw [h0] at hrow; simp at hrow
    simp only [List.getElem_map]
    have e : t.w[i] = t.w[i].dropLast ++ [t.w[i].getLast hne] := (List.dropLast_append_getLast hne).symm
    conv_lhs => rw [e]
    rw [dot_append _ _ _ _ (by simp [hrow, hx])]
    simp [dot, List.getLastD_eq_getLast?, List.getLast?_eq_some_getLast hne]

/-- **C14** With an ideal crossbar, on every reachable tile and for every input, the forward pass (training or
evaluation) equals `W·clip(x) + b`, where `(W, b)` are the logical weights returned by `get_weights()` and
`clip` limits to the input range in force; the single exception is an *analog* bias combined with an input
range, where the bias enters multiplied by the input range.  Evaluation does not change the tile; the
pass fails only if the input range is exactly 0. -/
theorem C14_forward (c : Cfg) (hc : c.Valid) (calls : List Call) (hcalls : ∀ k ∈ calls, k.Valid c)
    (x : Vec) (hx : x.length = c.inSize) (std : ℚ) (isTest : Bool) :
    let t := run c calls
    let r := forward x std isTest t
    (isTest = true → r.2 = t) ∧
    (r.2.inputRange ≠ some 0 →
      ∃ W b y, getWeights t true = .ok (W, b) ∧ r.1 = .ok y ∧ y.length = c.outSize ∧
        ∀ i < c.outSize, y.getD i 0 = dot (W.getD i []) (clippedInput r.2.inputRange x) +
          (if c.analogBias then r.2.inputRange.getD 1 else 1) * (b.getD []).getD i 0) ∧
    (r.2.inputRange = some 0 → r.1 = .error .nanInf) := by
  intro t r
  have ht : Good c t := run_good hc hcalls
  have hg' := afterForward_good ht std isTest
  obtain ⟨f1, f2, f3, f4, f5⟩ := afterForward_fields t std isTest
  set t' := afterForward t std isTest with ht'def
  have hpre := preForward_eq ht x std isTest
  rw [← ht'def] at hpre
  dsimp only at hpre
  -- evaluation of the chain
  have hchain : ∀ x', preForward x std isTest t = (.ok x', t') → x'.length = c.inSize →
      ∃ y, r = (.ok y, t') ∧ y.length = c.outSize ∧ ∀ i < c.outSize, y.getD i 0 =
        (dot ((storedWeights t).getD i []) x' +
          (if c.analogBias then (t.w.getD i []).getLastD 0 else 0)) *
          (t'.inputRange.getD 1 * factor t.mappingScales i) * factor t.learned i +
          (if c.digitalBias then t.bias.getD i 0 else 0) := by
    intro x' hx' hl
    obtain ⟨y, hy, hyl, hyr⟩ := devForward_row hg' hl
    obtain ⟨z, hz, hzl, hzr⟩ := postForward_eq hg' hyl
    have hjoint : jointForward x std isTest t = (.ok z, t') := by
      unfold jointForward
      simp only [Bind.bind, Op.bind, hx', Op.get, Op.lift, hy, hz]
    have hsw : storedWeights t' = storedWeights t := by unfold storedWeights; rw [f1, f2]
    obtain ⟨u, hu, hul, hur⟩ : ∃ u, applyOutScaling t' z = .ok u ∧ u.length = c.outSize ∧
          ∀ i < c.outSize, u.getD i 0 = z.getD i 0 * factor t.learned i := by
      unfold applyOutScaling
      rw [f5]
      cases hl : t.learned with
      | none => exact ⟨z, rfl, hzl, by simp [factor]⟩
      | some l =>
        refine ⟨List.zipWith (· * ·) z (expand c.outSize (some l)), ?_, by simp [expand_length, hzl], ?_⟩
        · exact bmul_eq hzl (ht.ls l hl)
        · intro i hi
          rw [List.getD_eq_getElem _ _ (by simp [expand_length, hzl]; exact hi),
            List.getD_eq_getElem _ _ (by omega)]
          simp [expand_getElem]
    refine ⟨if c.digitalBias then vadd u t'.bias else u, ?_, ?_, ?_⟩
    · show forward x std isTest t = _
      unfold forward
      simp only [Bind.bind, Op.bind, hjoint, Op.get, Op.lift, hu, Pure.pure, Op.pure, hg'.cfg]
    · split_ifs with hd
      · simp [vadd, hul, f3, ht.bias hd]
      · exact hul
    · intro i hi
      have hmain : u.getD i 0 = (dot ((storedWeights t).getD i []) x' +
          (if c.analogBias then (t.w.getD i []).getLastD 0 else 0)) *
          (t'.inputRange.getD 1 * factor t.mappingScales i) * factor t.learned i := by
        rw [hur i hi, hzr i hi, hyr i hi, hsw, f2, f4]
      rw [← hmain]
      by_cases hd : c.digitalBias = true
      · simp only [hd, if_true]
        have hbl := ht.bias hd
        rw [vadd, List.getD_eq_getElem _ _ (by simp [hul, f3, hbl]; exact hi),
          List.getD_eq_getElem _ _ (by omega), List.getD_eq_getElem _ _ (by omega)]
        simp [f3]
      · simp [hd]
  have hgw := getWeights_scaled hc ht
  have hrf : ∀ i < c.outSize, (rowFactors t).getD i 0 = factor t.mappingScales i * factor t.learned i := by
    intro i hi
    rw [List.getD_eq_getElem _ _ (by simp [rowFactors, ht.cfg]; exact hi)]
    simp [rowFactors]
  have hrl : (rowFactors t).length = c.outSize := by simp [rowFactors, ht.cfg]
  have hsl : (storedWeights t).length = c.outSize := (storedWeights_isMat ht).1
  have hWrow : ∀ i < c.outSize, (scaleRows (storedWeights t) (rowFactors t)).getD i [] =
      ((storedWeights t).getD i []).map ((factor t.mappingScales i * factor t.learned i) * ·) := by
    intro i hi
    rw [List.getD_eq_getElem _ _ (by simp [scaleRows, hsl, hrl]; exact hi),
      List.getD_eq_getElem _ _ (by omega)]
    have := hrf i hi
    rw [List.getD_eq_getElem _ _ (by omega)] at this
    simp [scaleRows, this]
  -- the bias term
  have hbias : ∀ g : ℚ, ∀ i < c.outSize,
      (if c.analogBias then (t.w.getD i []).getLastD 0 else 0) * (g * factor t.mappingScales i) *
        factor t.learned i + (if c.digitalBias then t.bias.getD i 0 else 0) =
      (if c.analogBias then g else 1) * ((if c.analogBias then
        (storedBias t).map fun b => List.zipWith (· * ·) b (rowFactors t) else storedBias t).getD []).getD i 0 := by
    intro g i hi
    cases ha : c.analogBias with
    | true =>
      have hd : c.digitalBias = false := by
        cases hd : c.digitalBias with
        | false => rfl
        | true => exact (hc.bias_excl ⟨ha, hd⟩).elim
      have hwl : i < t.w.length := by rw [ht.w.1]; exact hi
      simp only [if_true, hd, Bool.false_eq_true, if_false, add_zero, storedBias, ht.cfg, ha,
        Option.map_some, Option.getD_some]
      rw [List.getD_eq_getElem _ _ hwl, List.getD_eq_getElem _ _ (by simp [hrl]; omega)]
      have := hrf i hi
      rw [List.getD_eq_getElem _ _ (by omega)] at this
      simp only [List.getElem_zipWith, List.getElem_map, this]
      ring
    | false =>
      cases hd : c.digitalBias <;> simp [storedBias, ht.cfg, ha, hd]
  have hr2 : r.2 = t' := by
    show (forward x std isTest t).2 = t'
    cases hir : t'.inputRange with
    | none =>
      rw [hir] at hpre
      obtain ⟨y, hy, _⟩ := hchain x hpre hx
      have : r = forward x std isTest t := rfl
      rw [← this, hy]
    | some q =>
      rw [hir] at hpre
      by_cases hq : q = 0
      · simp only [hq, if_true] at hpre
        unfold forward jointForward
        simp only [Bind.bind, Op.bind, hpre]
      · simp only [hq, if_false] at hpre
        obtain ⟨y, hy, _⟩ := hchain _ hpre (by simp [clippedInput, hx])
        have : r = forward x std isTest t := rfl
        rw [← this, hy]
  refine ⟨?_, ?_, ?_⟩
  · intro hT
    rw [hr2, ht'def, afterForward]
    split
    · simp [hT]
    · rfl
  · intro hne
    rw [hr2] at hne ⊢
    cases hir : t'.inputRange with
    | none =>
      rw [hir] at hpre
      obtain ⟨y, hy, hyl, hyr⟩ := hchain x hpre hx
      refine ⟨_, _, y, hgw, by rw [hy], hyl, ?_⟩
      intro i hi
      rw [hyr i hi, hir, hWrow i hi, dot_smul_left, ← hbias _ i hi]
      simp only [clippedInput, Option.getD_none]
      ring
    | some q =>
      have hq : q ≠ 0 := by rintro rfl; exact hne hir
      rw [hir] at hpre
      simp only [hq, if_false] at hpre
      obtain ⟨y, hy, hyl, hyr⟩ := hchain _ hpre (by simp [clippedInput, hx])
      refine ⟨_, _, y, hgw, by rw [hy], hyl, ?_⟩
      intro i hi
      rw [hyr i hi, hir, hWrow i hi, dot_smul_left, ← hbias _ i hi, dot_map_div]
      simp only [Option.getD_some]
      field_simp
      ring
  · intro h0
    rw [hr2] at h0
    rw [h0] at hpre
    simp only [if_true] at hpre
    show (forward x std isTest t).1 = _
    unfold forward jointForward
    simp only [Bind.bind, Op.bind, hpre]

/-- Non-vacuity of C14, and the exception: with an analog bias 1 and an input range 3 the tile computes
`2·1 + 3·1` instead of `2·1 + 1`. -/
example :
    let c : Cfg := { outSize := 1, inSize := 1, analogBias := true, inputRange := some {} }
    let calls := [Call.setWeights [[2]] (some [1]) true (some 1)]
    c.Valid ∧ (∀ k ∈ calls, k.Valid c) ∧
      getWeights (run c calls) true = .ok ([[2]], some [1]) ∧
      (forward [1] 0 true (run c calls)).1 = .ok [5] := by
  refine ⟨⟨by decide, by decide, by decide⟩, ?_, by decide +kernel, by decide +kernel⟩
  intro k hk
  simp only [List.mem_cons, List.not_mem_nil, or_false] at hk
  rw [hk]; trivial

end Aihw.Periphery
