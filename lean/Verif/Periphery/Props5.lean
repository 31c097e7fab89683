import Verif.Periphery.Props4

/-!
# Properties C39 (backward pass) and C40 (gradient of the input range)
-/
namespace Aihw.Periphery

theorem dot_comm (a b : Vec) : dot a b = dot b a := by
  induction a generalizing b with
  | nil => simp
  | cons a as ih => cases b with
    | nil => simp
    | cons b bs => rw [dot_cons, dot_cons, ih, mul_comm]

theorem dot_eq_sum {a b : Vec} {n : Nat} (ha : a.length = n) (hb : b.length = n) :
    dot a b = ((List.range n).map fun i => a.getD i 0 * b.getD i 0).sum := by
  induction n generalizing a b with
  | zero =>
    rw [List.length_eq_zero_iff] at ha; subst ha; simp
  | succ n ih =>
    obtain ⟨x, as, rfl⟩ := List.exists_cons_of_length_eq_add_one ha
    obtain ⟨y, bs, rfl⟩ := List.exists_cons_of_length_eq_add_one hb
    rw [dot_cons, ih (by simpa using ha) (by simpa using hb), List.range_succ_eq_map]
    simp [List.map_map, Function.comp_def]

theorem col_getD {w : Mat} {i j : Nat} : (col w j).getD i 0 = entry w i j := by
  unfold col entry
  by_cases hi : i < w.length
  · rw [List.getD_eq_getElem _ _ (by simpa using hi), List.getD_eq_getElem _ [] hi]; simp
  · have e : w.getD i [] = [] := List.getD_eq_default _ _ (by omega)
    rw [List.getD_eq_default _ _ (by simpa using hi), e]; simp

/-- Optional broadcast product. -/
def scaleBy (s : Option Vec) (y : Vec) : Except PyErr Vec :=
  match s with
  | none => .ok y
  | some m => bmul y m

theorem scaled_col {y : Vec} {n : Nat} (hy : y.length = n) {s : Option Vec}
    (hs : ∀ v, s = some v → v.length = 1 ∨ v.length = n) :
    ∃ z, scaleBy s y = .ok z ∧
      z.length = n ∧ ∀ i < n, z.getD i 0 = y.getD i 0 * factor s i := by
  cases s with
  | none => exact ⟨y, rfl, hy, by simp [factor]⟩
  | some m =>
    refine ⟨_, bmul_eq hy (hs m rfl), by simp [expand_length, hy], ?_⟩
    intro i hi
    rw [List.getD_eq_getElem _ _ (by simp [expand_length, hy]; exact hi), List.getD_eq_getElem _ _ (by omega)]
    simp [expand_getElem]

/-- **C39** (backward). On every reachable tile with an ideal crossbar the gradient with respect to the input
that the module returns for an output gradient `d` is `Wᵀ d`, where `W` is the logical weight matrix returned by
`get_weights()` - for every bias kind, mapping scale and learned scale, and regardless of the input range (the
clip of the input is treated as the identity). -/
theorem C39_backward (c : Cfg) (hc : c.Valid) (calls : List Call) (hcalls : ∀ k ∈ calls, k.Valid c)
    (d : Vec) (hd : d.length = c.outSize) :
    let t := run c calls
    ∃ W b g, getWeights t true = .ok (W, b) ∧ moduleBackward t d = .ok g ∧ g.length = c.inSize ∧
      ∀ j < c.inSize, g.getD j 0 = ((List.range c.outSize).map fun i => entry W i j * d.getD i 0).sum := by
  intro t
  have ht : Good c t := run_good hc hcalls
  obtain ⟨d1, h1, l1, r1⟩ := scaled_col hd (s := t.learned) (fun v hv => ht.ls v hv)
  obtain ⟨d2, h2, l2, r2⟩ := scaled_col l1 (s := t.mappingScales) (fun v hv => ht.ms v hv)
  refine ⟨_, _, devBackward t d2, getWeights_scaled hc ht, ?_, by simp [devBackward, ht.cfg], ?_⟩
  · have e1 : applyOutScaling t d = .ok d1 := h1
    unfold moduleBackward backward
    simp only [e1, Bind.bind, Except.bind, Pure.pure, Except.pure]
    unfold scaleBy at h2
    cases hm : t.mappingScales with
    | none => rw [hm] at h2; simp only at h2 ⊢; cases h2; rfl
    | some m => rw [hm] at h2; simp only at h2 ⊢; rw [h2]
  · intro j hj
    have hrl : (rowFactors t).length = c.outSize := by simp [rowFactors, ht.cfg]
    unfold devBackward
    rw [List.getD_eq_getElem _ _ (by simp [ht.cfg]; exact hj)]
    simp only [List.getElem_map, List.getElem_range]
    rw [dot_eq_sum (n := c.outSize) (by simp [col, ht.w.1]) l2]
    congr 1
    apply List.map_congr_left
    intro i hi
    rw [List.mem_range] at hi
    rw [col_getD, r2 i hi, r1 i hi, scaleRows_entry (storedWeights_isMat ht) hrl hi hj,
      storedWeights_entry ht hj]
    have hrv : (rowFactors t).getD i 0 = factor t.mappingScales i * factor t.learned i := by
      rw [List.getD_eq_getElem _ _ (by rw [hrl]; exact hi)]; simp [rowFactors]
    rw [hrv]; ring

theorem clippedInput_of_le {r : Option ℚ} {x : Vec} (h : ∀ q, r = some q → ∀ a ∈ x, |a| ≤ |q|) :
    clippedInput r x = x := by
  cases r with
  | none => rfl
  | some q =>
    unfold clippedInput
    conv_rhs => rw [← List.map_id x]
    apply List.map_congr_left
    intro a ha
    have := abs_le.1 (h q rfl a ha)
    rw [min_eq_right this.2, max_eq_right this.1]; rfl

theorem sum_map_mul_left' {α : Type} (l : List α) (f : α → ℚ) (k : ℚ) :
    (l.map fun a => k * f a).sum = k * (l.map f).sum := by
  induction l with
  | nil => simp
  | cons a l ih => simp only [List.map_cons, List.sum_cons, ih]; ring

theorem sum_comm {α β : Type} (l : List α) (m : List β) (f : α → β → ℚ) :
    (l.map fun a => (m.map fun b => f a b).sum).sum = (m.map fun b => (l.map fun a => f a b).sum).sum := by
  induction l with
  | nil => simp
  | cons a l ih =>
    simp only [List.map_cons, List.sum_cons, ih, List.sum_map_add]

theorem sum_sub {α : Type} (l : List α) (f g : α → ℚ) :
    (l.map f).sum - (l.map g).sum = (l.map fun a => f a - g a).sum := by
  induction l with
  | nil => simp
  | cons a l ih => simp only [List.map_cons, List.sum_cons, ← ih]; ring

/-- **C39** (gradient of the forward pass). For inputs inside the input range the returned input gradient is the
exact derivative of the evaluation forward pass: for all `x`, `x'` and output gradients `d`,
`⟨d, f(x) - f(x')⟩ = ⟨backward(d), x - x'⟩`. -/
theorem C39_adjoint (c : Cfg) (hc : c.Valid) (calls : List Call) (hcalls : ∀ k ∈ calls, k.Valid c)
    (x x' d : Vec) (hx : x.length = c.inSize) (hx' : x'.length = c.inSize) (hd : d.length = c.outSize)
    (s s' : ℚ) (hir : (run c calls).inputRange ≠ some 0)
    (hin : ∀ q, (run c calls).inputRange = some q → (∀ a ∈ x, |a| ≤ |q|) ∧ (∀ a ∈ x', |a| ≤ |q|)) :
    let t := run c calls
    ∃ y y' g, (forward x s true t).1 = .ok y ∧ (forward x' s' true t).1 = .ok y' ∧
      moduleBackward t d = .ok g ∧ dot d y - dot d y' = dot g x - dot g x' := by
  intro t
  have ht : Good c t := run_good hc hcalls
  obtain ⟨W, b, g, hW, hg, hgl, hgr⟩ := C39_backward c hc calls hcalls d hd
  obtain ⟨p1, p2, _⟩ := C14_forward c hc calls hcalls x hx s true
  obtain ⟨q1, q2, _⟩ := C14_forward c hc calls hcalls x' hx' s' true
  rw [p1 rfl] at p2
  rw [q1 rfl] at q2
  obtain ⟨W1, b1, y, hW1, hy, hyl, hyr⟩ := p2 hir
  obtain ⟨W2, b2, y', hW2, hy', hyl', hyr'⟩ := q2 hir
  rw [hW1] at hW hW2
  cases hW; cases hW2
  refine ⟨y, y', g, hy, hy', hg, ?_⟩
  have hgw := getWeights_scaled hc ht
  have hWm : IsMat c.outSize c.inSize W := by
    have : getWeights t true = .ok (W, b) := hW1
    rw [hgw] at this
    cases this
    exact scaleRows_isMat (storedWeights_isMat ht) (by simp [rowFactors, ht.cfg, (storedWeights_isMat ht).1])
  have hrow : ∀ i < c.outSize, (W.getD i []).length = c.inSize := by
    intro i hi
    rw [List.getD_eq_getElem _ _ (by rw [hWm.1]; exact hi)]
    exact hWm.2 _ (List.getElem_mem _)
  have hcx : clippedInput (run c calls).inputRange x = x := clippedInput_of_le fun q hq => (hin q hq).1
  have hcx' : clippedInput (run c calls).inputRange x' = x' := clippedInput_of_le fun q hq => (hin q hq).2
  rw [dot_eq_sum hd hyl, dot_eq_sum hd hyl', dot_eq_sum hgl hx, dot_eq_sum hgl hx', sum_sub, sum_sub]
  have e1 : ((List.range c.outSize).map fun i => d.getD i 0 * y.getD i 0 - d.getD i 0 * y'.getD i 0) =
      (List.range c.outSize).map fun i => ((List.range c.inSize).map fun j =>
        d.getD i 0 * entry W i j * (x.getD j 0 - x'.getD j 0)).sum := by
    apply List.map_congr_left
    intro i hi
    rw [List.mem_range] at hi
    rw [hyr i hi, hyr' i hi, hcx, hcx', dot_eq_sum (hrow i hi) hx, dot_eq_sum (hrow i hi) hx']
    have : ((List.range c.inSize).map fun j => d.getD i 0 * entry W i j * (x.getD j 0 - x'.getD j 0)) =
        (List.range c.inSize).map fun j => d.getD i 0 * ((W.getD i []).getD j 0 * x.getD j 0 -
          (W.getD i []).getD j 0 * x'.getD j 0) := by
      apply List.map_congr_left; intro j _; unfold entry; ring
    rw [this, sum_map_mul_left', ← sum_sub]; ring
  have e2 : ((List.range c.inSize).map fun j => g.getD j 0 * x.getD j 0 - g.getD j 0 * x'.getD j 0) =
      (List.range c.inSize).map fun j => ((List.range c.outSize).map fun i =>
        d.getD i 0 * entry W i j * (x.getD j 0 - x'.getD j 0)).sum := by
    apply List.map_congr_left
    intro j hj
    rw [List.mem_range] at hj
    rw [hgr j hj]
    have : ((List.range c.outSize).map fun i => d.getD i 0 * entry W i j * (x.getD j 0 - x'.getD j 0)) =
        (List.range c.outSize).map fun i => (x.getD j 0 - x'.getD j 0) * (entry W i j * d.getD i 0) := by
      apply List.map_congr_left; intro i _; ring
    rw [this, sum_map_mul_left']; ring
  rw [e1, e2, sum_comm]

/-- Non-vacuity of C39, with an analog bias, column-wise mapping scales and learned scales. -/
example :
    let c : Cfg := { outSize := 2, inSize := 1, analogBias := true, inputRange := some {},
                     mapping := some { columnwise := true, learnOutScaling := true } }
    let calls := [Call.setWeights [[2], [4]] (some [1, 1]) true (some 1), .setLearnedOutScales [5]]
    c.Valid ∧ (∀ k ∈ calls, k.Valid c) ∧
      getWeights (run c calls) true = .ok ([[10], [20]], some [5, 5]) ∧
      moduleBackward (run c calls) [1, 2] = .ok [50] := by
  refine ⟨⟨by decide, by decide, by decide⟩, ?_, by decide +kernel, by decide +kernel⟩
  intro k hk
  simp only [List.mem_cons, List.not_mem_nil, or_false] at hk
  rcases hk with rfl | rfl <;> trivial

/-! ## C40 -/

theorem sum_nonpos' {l : List ℚ} (h : ∀ a ∈ l, a ≤ 0) : l.sum ≤ 0 := by
  induction l with
  | nil => simp
  | cons a l ih =>
    rw [List.sum_cons]
    exact add_nonpos (h a (by simp)) (ih fun x hx => h x (by simp [hx]))

theorem irClipGrad_nonpos (r : ℚ) (xd : List (ℚ × ℚ)) : irClipGrad r xd ≤ 0 := by
  unfold irClipGrad
  have h1 : (xd.map fun p => min (if p.1 ≥ r then p.2 else 0) 0).sum ≤ 0 := by
    apply sum_nonpos'
    intro a ha
    obtain ⟨p, _, rfl⟩ := List.mem_map.1 ha
    exact min_le_right _ _
  have h2 : 0 ≤ (xd.map fun p => max (if p.1 ≤ -r then p.2 else 0) 0).sum := by
    apply List.sum_nonneg
    intro a ha
    obtain ⟨p, _, rfl⟩ := List.mem_map.1 ha
    exact le_max_right _ _
  linarith

/-- **C40** (only decay shrinks the range). For a non-negative range and gradient scale, whatever the inputs and
the incoming gradients, the gradient accumulated for the input range is at most the decay term, and at most 0
if decay is off or no more than `input_min_percentage` of the inputs are inside the range: a plain SGD step can
shrink the range only through decay. -/
theorem C40_only_decay_shrinks (p : IRGradPars) (r : ℚ) (hr : 0 ≤ r) (hs : 0 ≤ p.gradientScale)
    (xd : List (ℚ × ℚ)) (masked : Option Nat) :
    irGrad p r xd masked ≤ max p.decay 0 * r ∧
    ((p.decay ≤ 0 ∨ ((xd.countP fun q => decide (|q.1| < r) : ℕ) : ℚ) / xd.length ≤ p.inputMinPercentage) →
      irGrad p r xd masked ≤ 0) := by
  have h0 := irClipGrad_nonpos r xd
  have h1 : (if p.gradientRelative then irClipGrad r xd * r * p.gradientScale else irClipGrad r xd) ≤ 0 := by
    split_ifs
    · exact mul_nonpos_of_nonpos_of_nonneg (mul_nonpos_of_nonpos_of_nonneg h0 hr) hs
    · exact h0
  have h3 : irGradBase p r xd masked ≤ 0 := by
    unfold irGradBase
    cases masked with
    | none => exact h1
    | some k =>
      dsimp only
      generalize (if p.gradientRelative then irClipGrad r xd * r * p.gradientScale else irClipGrad r xd) = g
        at h1 ⊢
      split_ifs
      · have : 0 ≤ (1 - (1 - (k : ℚ) / xd.length)) * r * 1 := by
          have : (0 : ℚ) ≤ (k : ℚ) / xd.length := by positivity
          simp only [sub_sub_cancel, mul_one]
          positivity
        linarith
      · simpa using h1
      · exact h1
  unfold irGrad
  dsimp only
  generalize irGradBase p r xd masked = G at h3 ⊢
  have hd : 0 ≤ max p.decay 0 := le_max_right _ _
  constructor
  · split_ifs with a b
    · have : p.decay ≤ max p.decay 0 := le_max_left _ _
      nlinarith
    · have := mul_nonneg hd hr; simp; linarith
    · have := mul_nonneg hd hr; linarith
  · rintro (h | h)
    · rw [if_neg (not_lt.2 h)]; exact h3
    · split_ifs with a b
      · exact absurd b (not_lt.2 h)
      · simpa using h3
      · exact h3

/-- **C40** (no clipped input, no clipping gradient): inputs strictly inside the range contribute nothing. -/
theorem C40_inside_no_gradient (r : ℚ) (xd : List (ℚ × ℚ)) (h : ∀ q ∈ xd, |q.1| < r) :
    irClipGrad r xd = 0 := by
  have e1 : (xd.map fun p => min (if p.1 ≥ r then p.2 else 0) 0) = xd.map fun _ => (0 : ℚ) := by
    apply List.map_congr_left
    intro q hq
    have := abs_lt.1 (h q hq)
    rw [if_neg (by simpa using this.2)]; simp
  have e2 : (xd.map fun p => max (if p.1 ≤ -r then p.2 else 0) 0) = xd.map fun _ => (0 : ℚ) := by
    apply List.map_congr_left
    intro q hq
    have := abs_lt.1 (h q hq)
    rw [if_neg (by simpa using this.1)]; simp
  unfold irClipGrad
  rw [e1, e2]; simp

/-- **C40** (gradient scale). `gradient_scale` acts only together with `gradient_relative`; without it the
gradient is independent of `gradient_scale`. -/
theorem C40_scale_ignored (p : IRGradPars) (hp : p.gradientRelative = false) (s r : ℚ) (xd : List (ℚ × ℚ))
    (masked : Option Nat) : irGrad { p with gradientScale := s } r xd masked = irGrad p r xd masked := by
  simp [irGrad, irGradBase, hp]

/-- **C40** (wrong percentage). With `manage_output_clipping` the number of clipped outputs is divided by the
number of *inputs* of the batch: when all `k` outputs are clipped, the amount subtracted is `(k / #inputs) * range`
rather than the documented `(1 - 0) * range`, for every batch. -/
theorem C40_output_percentage (p : IRGradPars) (hp : p.manageOutputClipping = true) (hd : p.decay = 0)
    (r : ℚ) (xd : List (ℚ × ℚ)) (k : Nat) (hlow : 1 - (k : ℚ) / xd.length < p.outputMinPercentage) :
    irGrad p r xd none - irGrad p r xd (some k) = (k : ℚ) / xd.length * r := by
  simp [irGrad, irGradBase, hp, hd, hlow]

/-- **C40** (decay). The decay term is exactly `decay * range` if the decay is positive and the share of inputs strictly inside the range exceeds
`input_min_percentage`, and absent otherwise. -/
theorem C40_decay (p : IRGradPars) (r : ℚ) (xd : List (ℚ × ℚ)) (masked : Option Nat) :
    irGrad p r xd masked = irGrad { p with decay := 0 } r xd masked +
      (if 0 < p.decay ∧ p.inputMinPercentage < ((xd.filter fun q => |q.1| < r).length : ℚ) / xd.length then p.decay * r else 0) := by
  have h0 : irGrad { p with decay := 0 } r xd masked = irGradBase p r xd masked := by
    simp [irGrad, irGradBase]
  rw [h0]
  unfold irGrad
  simp only [List.countP_eq_length_filter, gt_iff_lt]
  by_cases h : 0 < p.decay
  · rw [if_pos h]
    by_cases h2 : p.inputMinPercentage < ((xd.filter fun q => |q.1| < r).length : ℚ) / xd.length
    · rw [if_pos h2, if_pos ⟨h, h2⟩, mul_one]
    · rw [if_neg h2, if_neg (fun h' => h2 h'.2), mul_zero]
  · rw [if_neg h, if_neg (fun h' => h h'.1), add_zero]

/-- **C40** (clipping). Without the relative gradient, decay and output clipping the gradient collects the negative gradients of inputs at or
above the range and, with the opposite sign, the positive ones at or below its negative. -/
theorem C40_clipping (p : IRGradPars) (hp : p.gradientRelative = false) (hd : p.decay = 0) (r : ℚ) (xd : List (ℚ × ℚ)) :
    irGrad p r xd none = ((xd.filter fun q => r ≤ q.1).map fun q => min q.2 0).sum - ((xd.filter fun q => q.1 ≤ -r).map fun q => max q.2 0).sum := by
  have h1 : ∀ l : List (ℚ × ℚ), (l.map fun p => min (if p.1 ≥ r then p.2 else 0) 0).sum =
      ((l.filter fun q => r ≤ q.1).map fun q => min q.2 0).sum := by
    intro l
    induction l with
    | nil => rfl
    | cons q l ih =>
      rw [List.map_cons, List.sum_cons, ih, List.filter_cons]
      by_cases h : r ≤ q.1
      · rw [if_pos h, if_pos (by simpa using h), List.map_cons, List.sum_cons]
      · rw [if_neg h, if_neg (by simpa using h), min_self, zero_add]
  have h2 : ∀ l : List (ℚ × ℚ), (l.map fun p => max (if p.1 ≤ -r then p.2 else 0) 0).sum =
      ((l.filter fun q => q.1 ≤ -r).map fun q => max q.2 0).sum := by
    intro l
    induction l with
    | nil => rfl
    | cons q l ih =>
      rw [List.map_cons, List.sum_cons, ih, List.filter_cons]
      by_cases h : q.1 ≤ -r
      · rw [if_pos h, if_pos (by simpa using h), List.map_cons, List.sum_cons]
      · rw [if_neg h, if_neg (by simpa using h), max_self, zero_add]
  unfold irGrad irGradBase irClipGrad
  simp only [hp, hd, h1, h2]
  simp

/-- **C13** (initial scales). A new tile has the digital scale `1` if layer-wise weight scaling is configured with a non-zero omega; with
column-wise scaling or without weight scaling it has none (and learned scales of `1` if configured). -/
theorem C13_initial_scales (c : Cfg) (m : MappingPars) (hm : c.mapping = some m) :
    (m.learnOutScaling = false → getScales (init c) =
      .ok (if m.columnwise = false ∧ m.omega ≠ none ∧ m.omega ≠ some 0 then some [1] else none)) ∧
    (m.learnOutScaling = true → getScales (init c) = .ok (some (List.replicate (if m.outScalingColumnwise then c.outSize else 1) 1))) := by
  have hb : ∀ n : Nat, bmul [1] (List.replicate n 1) = .ok (List.replicate n 1) := by
    intro n
    unfold bmul
    match n with
    | 0 => simp
    | 1 => simp
    | n + 2 => simp [List.replicate_succ]
  constructor
  · intro hl
    simp only [getScales, init, hm, hl]
    cases ho : m.omega with
    | none => simp
    | some o =>
      by_cases h : o = 0
      · simp [h]
      · cases hc : m.columnwise <;> simp [h]
  · intro hl
    simp only [getScales, init, hm, hl, if_true]
    cases ho : m.omega with
    | none => simp
    | some o =>
      by_cases h : o = 0
      · simp [h]
      · cases hc : m.columnwise
        · simp only [h, ne_eq, not_false_eq_true, and_self, if_true]
          rw [hb]; rfl
        · simp [h]

/-- Non-vacuity of C40: one clipped value with a gradient pushing outwards, and the percentage mismatch for
4 clipped outputs on 1 input. -/
example : irGrad { decay := 0 } 2 [(3, -1), (1, 5)] none = -2 ∧
    irGrad {} 2 [(1, 5)] none = 1 / 500 ∧
    irGrad { decay := 0, manageOutputClipping := true } 2 [(1, 5)] (some 4) = -8 := by
  refine ⟨?_, ?_, ?_⟩ <;> decide +kernel

end Aihw.Periphery
