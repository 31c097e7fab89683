import Verif.Common
import Mathlib.Analysis.Real.Sqrt

/-!
# Weight clipping (C32)

Model of `clip_weights` of the torch tile (src/aihwkit/simulator/tiles/torch_tile.py:136-160) and of the RPUCuda
tile (src/rpucuda/weight_clipper.cpp:23-106), over the reals (the standard deviation is a square root).
-/
namespace Aihw.PostUpdate.Clip

abbrev RMat := List (List ℝ)

/-- `torch.clamp(x, lo, hi)`, equal to `MIN(MAX(x, lo), hi)` of src/rpucuda/math_util.h:23-27. If `lo > hi` the result
is `hi`. -/
noncomputable def clampR (lo hi x : ℝ) : ℝ := min (max x lo) hi

/-- Elementwise clamp to `[-v, v]` (weight_clipper.cpp:23-29). -/
noncomputable def clipAll (v : ℝ) (w : RMat) : RMat := w.map fun r => r.map (clampR (-v) v)

/-- `weight.std()` (unbiased) and weight_clipper.cpp:75-92. -/
noncomputable def stdOf (l : List ℝ) : ℝ :=
  let mu := l.sum / l.length
  Real.sqrt ((l.map fun x => (x - mu) * (x - mu)).sum / (l.length - 1))

/-- `WeightClipType` (src/aihwkit/simulator/parameters/enums.py), without `NONE`. -/
inductive ClipType where
  | fixedValue | layerGaussian | averageChannelMax
  deriving DecidableEq

/-- `WeightClipParameter` (src/aihwkit/simulator/parameters/inference.py:147-171). -/
structure ClipPars where
  type : ClipType
  fixedValue : ℝ := -1
  sigma : ℝ := 5 / 2

/-- torch_tile.py:136-160. A single weight has a NaN standard deviation. -/
noncomputable def torchClip (p : ClipPars) (w : RMat) : Except PyErr RMat :=
  match p.type with
  | .fixedValue => .ok (clipAll p.fixedValue w)
  | .layerGaussian =>
    if w.flatten.length ≤ 1 then .error .nanInf
    else
      let alpha := stdOf w.flatten * p.sigma
      let alpha := if p.fixedValue > 0 then min p.fixedValue alpha else alpha
      .ok (clipAll alpha w)
  | .averageChannelMax => .error .notImplemented

/-- Maximum of absolute values. -/
noncomputable def rowAmax (r : List ℝ) : ℝ := (r.map (|·|)).foldl max 0

/-- weight_clipper.cpp:33-99: the clip value; `none` stands for NaN (one single weight: 0/0), for which
`MIN(NaN, fixed)` is `fixed` and the test `clip_value > 0` fails. -/
noncomputable def cppClipValue (p : ClipPars) (w : RMat) : Option ℝ :=
  match p.type with
  | .fixedValue => some p.fixedValue
  | .averageChannelMax =>
    let v := |(w.map rowAmax).sum / w.length|
    some (if p.fixedValue > 0 then min v p.fixedValue else v)
  | .layerGaussian =>
    if w.flatten.length ≤ 1 then (if p.fixedValue > 0 then some p.fixedValue else none)
    else
      let v := stdOf w.flatten * p.sigma
      some (if p.fixedValue > 0 then min v p.fixedValue else v)

/-- weight_clipper.cpp:101-105. -/
noncomputable def cppClip (p : ClipPars) (w : RMat) : RMat :=
  match cppClipValue p w with
  | some v => if v > 0 then clipAll v w else w
  | none => w

/-! ## Specification -/

/-- `y` is the value of magnitude at most `b` closest to `x`. -/
def IsNearest (b x y : ℝ) : Prop := |y| ≤ b ∧ ∀ z, |z| ≤ b → |x - y| ≤ |x - z|

/-- Same shape, and every entry of `w'` is the closest value of magnitude at most `b` to the entry of `w`. -/
def Projected (b : ℝ) (w w' : RMat) : Prop := List.Forall₂ (List.Forall₂ (IsNearest b)) w w'

/-! ## Lemmas -/

theorem clampR_nearest {b : ℝ} (hb : 0 ≤ b) (x : ℝ) : IsNearest b x (clampR (-b) b x) := by
  unfold clampR
  constructor
  · rw [abs_le]
    exact ⟨le_min (le_max_right _ _) (by linarith), min_le_right _ _⟩
  · intro z hz
    rw [abs_le] at hz
    rcases le_total x (-b) with h | h
    · rw [max_eq_right h, min_eq_left (by linarith), abs_of_nonpos (by linarith), abs_of_nonpos (by linarith)]
      linarith
    · rw [max_eq_left h]
      rcases le_total x b with h' | h'
      · rw [min_eq_left h']; simp
      · rw [min_eq_right h', abs_of_nonneg (by linarith), abs_of_nonneg (by linarith)]
        linarith

theorem forall₂_map_self {α : Type} {P : α → α → Prop} {f : α → α} (h : ∀ x, P x (f x)) (l : List α) :
    List.Forall₂ P l (l.map f) := by
  induction l with
  | nil => exact .nil
  | cons a l ih => exact .cons (h a) ih

theorem clipAll_projected {b : ℝ} (hb : 0 ≤ b) (w : RMat) : Projected b w (clipAll b w) :=
  forall₂_map_self (fun r => forall₂_map_self (clampR_nearest hb) r) w

/-- The nearest value is unique; inside the bound it is the value itself, and it is monotone. -/
theorem IsNearest.eq {b x y : ℝ} (h : IsNearest b x y) : y = max (-b) (min b x) := by
  have hb : 0 ≤ b := (abs_nonneg y).trans h.1
  have hy := abs_le.1 h.1
  rcases le_total x (-b) with h1 | h1
  · have := h.2 (-b) (by rw [abs_neg, abs_of_nonneg hb])
    rw [abs_of_nonpos (by linarith), abs_of_nonpos (by linarith)] at this
    rw [min_eq_right (by linarith), max_eq_left h1]; linarith
  · rcases le_total x b with h2 | h2
    · have := h.2 x (abs_le.2 ⟨h1, h2⟩)
      rw [sub_self, abs_zero] at this
      have : x - y = 0 := abs_nonpos_iff.1 this
      rw [min_eq_right h2, max_eq_right h1]; linarith
    · have := h.2 b (by rw [abs_of_nonneg hb])
      rw [abs_of_nonneg (by linarith), abs_of_nonneg (by linarith)] at this
      rw [min_eq_left h2, max_eq_right (by linarith)]; linarith

theorem clipAll_neg {b : ℝ} (hb : b < 0) (w : RMat) : clipAll b w = w.map fun r => r.map fun _ => b := by
  unfold clipAll clampR
  congr 1; funext r; congr 1; funext x
  apply min_eq_right
  exact le_max_of_le_right (by linarith)

theorem stdOf_nonneg (l : List ℝ) : 0 ≤ stdOf l := Real.sqrt_nonneg _

theorem stdOf_const {l : List ℝ} {a : ℝ} (h : ∀ x ∈ l, x = a) (hl : l ≠ []) : stdOf l = 0 := by
  have e : l = List.replicate l.length a := List.eq_replicate_iff.2 ⟨rfl, h⟩
  have hn : (l.length : ℝ) ≠ 0 := by
    have := List.length_pos_of_ne_nil hl
    exact_mod_cast this.ne'
  have hmu : l.sum / l.length = a := by
    rw [e]; simp [hn]
  unfold stdOf
  simp only [hmu]
  have : (l.map fun x => (x - a) * (x - a)) = List.replicate l.length 0 := by
    rw [List.eq_replicate_iff]
    refine ⟨by simp, ?_⟩
    intro b hb
    obtain ⟨x, hx, rfl⟩ := List.mem_map.1 hb
    rw [h x hx]; simp
  rw [this]; simp

theorem rowAmax_nonneg (r : List ℝ) : 0 ≤ rowAmax r := by
  unfold rowAmax
  have : ∀ (l : List ℝ) (a : ℝ), a ≤ l.foldl max a := by
    intro l
    induction l with
    | nil => intro a; exact le_rfl
    | cons b l ih => intro a; exact (le_max_left a b).trans (ih _)
  exact this _ 0

/-! ## C32 -/

/-- The clip bound the documentation gives for a configuration. -/
noncomputable def docBound (p : ClipPars) (w : RMat) : ℝ :=
  let base := match p.type with
    | .fixedValue => p.fixedValue
    | .layerGaussian => stdOf w.flatten * p.sigma
    | .averageChannelMax => (w.map rowAmax).sum / w.length
  if p.type ≠ .fixedValue ∧ 0 < p.fixedValue then min base p.fixedValue else base

theorem docBound_avg_nonneg (p : ClipPars) (w : RMat) : 0 ≤ (w.map rowAmax).sum / w.length := by
  apply div_nonneg _ (Nat.cast_nonneg _)
  apply List.sum_nonneg
  intro x hx
  obtain ⟨r, _, rfl⟩ := List.mem_map.1 hx
  exact rowAmax_nonneg r

/-- **C32** (the standard deviation in the bound is the unbiased sample one): the non-negative number whose square
times `n - 1` is the sum of squared deviations from the mean. -/
theorem C32_std (l : List ℝ) (h : 2 ≤ l.length) :
    0 ≤ stdOf l ∧ stdOf l ^ 2 * ((l.length : ℝ) - 1) = (l.map fun x => (x - l.sum / l.length) ^ 2).sum := by
  have hn : (0 : ℝ) < (l.length : ℝ) - 1 := by
    have : (2 : ℝ) ≤ l.length := by exact_mod_cast h
    linarith
  unfold stdOf
  refine ⟨Real.sqrt_nonneg _, ?_⟩
  have e : (l.map fun x => (x - l.sum / l.length) * (x - l.sum / l.length)) =
      l.map fun x => (x - l.sum / l.length) ^ 2 := by
    apply List.map_congr_left; intro x _; ring
  simp only
  rw [e, Real.sq_sqrt, div_mul_cancel₀ _ hn.ne']
  apply div_nonneg _ hn.le
  apply List.sum_nonneg
  intro x hx
  obtain ⟨y, _, rfl⟩ := List.mem_map.1 hx
  positivity

/-- **C32** (RPUCuda tile). For every weight matrix with at least two weights and every configuration whose documented
bound is positive, clipping replaces every weight by the closest value within the bound. -/
theorem C32_cpp_clip (p : ClipPars) (w : RMat) (h2 : 2 ≤ w.flatten.length) (hpos : 0 < docBound p w) :
    Projected (docBound p w) w (cppClip p w) := by
  have e : cppClipValue p w = some (docBound p w) := by
    unfold cppClipValue docBound
    cases hty : p.type with
    | fixedValue => simp
    | layerGaussian =>
      simp only [show ¬ w.flatten.length ≤ 1 by omega, if_false, ne_eq, reduceCtorEq, not_false_eq_true, true_and,
        gt_iff_lt]
    | averageChannelMax =>
      simp only [ne_eq, reduceCtorEq, not_false_eq_true, true_and, gt_iff_lt]
      rw [abs_of_nonneg (docBound_avg_nonneg p w)]
  unfold cppClip
  rw [e]
  simp only [gt_iff_lt, hpos, if_true]
  exact clipAll_projected hpos.le w

/-- **C32** (torch tile). The same for the two implemented types, also for a bound of zero. -/
theorem C32_torch_clip (p : ClipPars) (w : RMat) (h2 : 2 ≤ w.flatten.length) (hty : p.type ≠ .averageChannelMax)
    (hpos : 0 ≤ docBound p w) : ∃ w', torchClip p w = .ok w' ∧ Projected (docBound p w) w w' := by
  refine ⟨clipAll (docBound p w) w, ?_, clipAll_projected hpos w⟩
  unfold torchClip docBound
  cases hty' : p.type with
  | fixedValue => simp
  | layerGaussian =>
    simp only [show ¬ w.flatten.length ≤ 1 by omega, if_false, ne_eq, reduceCtorEq, not_false_eq_true, true_and,
      gt_iff_lt]
    split_ifs
    · rw [min_comm]
    · rfl
  | averageChannelMax => exact absurd hty' hty

/-- **C32** (consequences of being closest): weights inside the bound do not change, order is preserved, clipping
twice at the same bound changes nothing more. -/
theorem C32_projection (b : ℝ) (x y x' y' : ℝ) (h : IsNearest b x y) (h' : IsNearest b x' y') :
    (|x| ≤ b → y = x) ∧ (x ≤ x' → y ≤ y') ∧ IsNearest b y y ∧ |y| ≤ b := by
  refine ⟨?_, ?_, ⟨h.1, fun z _ => by simp⟩, h.1⟩
  · intro hx
    rw [h.eq]
    have := abs_le.1 hx
    rw [min_eq_right this.2, max_eq_right this.1]
  · intro hx
    rw [h.eq, h'.eq]
    exact max_le_max le_rfl (min_le_min le_rfl hx)

/-- **C32** (idempotence of fixed-value clipping, both tiles). -/
theorem C32_fixed_idempotent (v : ℝ) (hv : 0 < v) (w : RMat) (s : ℝ) :
    let p : ClipPars := ⟨.fixedValue, v, s⟩
    cppClip p (cppClip p w) = cppClip p w ∧ torchClip p w = .ok (cppClip p w) ∧
      torchClip p (cppClip p w) = .ok (cppClip p w) := by
  have idem : clipAll v (clipAll v w) = clipAll v w := by
    unfold clipAll
    rw [List.map_map]
    congr 1; funext r
    simp only [Function.comp, List.map_map]
    apply List.map_congr_left
    intro x _
    have h1 : -v ≤ clampR (-v) v x := le_min (le_max_right _ _) (by linarith)
    have h2 : clampR (-v) v x ≤ v := min_le_right _ _
    show clampR (-v) v (clampR (-v) v x) = _
    generalize clampR (-v) v x = y at *
    unfold clampR; rw [max_eq_left h1, min_eq_left h2]
  simp only [cppClip, cppClipValue, torchClip, gt_iff_lt, hv, if_true, idem, and_self]

/-- **C32** (exception, torch tile). With a negative clip value - the default is -1 - fixed-value clipping of the torch
tile overwrites every weight by that value; the RPUCuda tile leaves the weights alone. -/
theorem C32_torch_negative_fixed (v : ℝ) (hv : v < 0) (w : RMat) (s : ℝ) :
    let p : ClipPars := ⟨.fixedValue, v, s⟩
    torchClip p w = .ok (w.map fun r => r.map fun _ => v) ∧ cppClip p w = w := by
  simp only [torchClip, clipAll_neg hv, cppClip, cppClipValue, gt_iff_lt, not_lt.2 hv.le, if_false, and_self]

/-- **C32** (exception, torch tile). Layer-Gaussian clipping of a matrix whose weights are all equal (standard
deviation 0) sets all weights to zero on the torch tile and changes nothing on the RPUCuda tile. -/
theorem C32_torch_constant_zeroed (p : ClipPars) (hty : p.type = .layerGaussian) (w : RMat) (a : ℝ)
    (h2 : 2 ≤ w.flatten.length) (hc : ∀ r ∈ w, ∀ x ∈ r, x = a) :
    torchClip p w = .ok (w.map fun r => r.map fun _ => 0) ∧ cppClip p w = w := by
  have hs : stdOf w.flatten = 0 := stdOf_const (a := a) (by
    intro x hx
    obtain ⟨r, hr, hx⟩ := List.mem_flatten.1 hx
    exact hc r hr x hx) (by intro e; rw [e] at h2; simp at h2)
  have h1 : ¬ w.flatten.length ≤ 1 := by omega
  have hmin : ∀ q : ℝ, (if q > 0 then min q (0 : ℝ) else 0) = 0 := by
    intro q; split_ifs with h
    · exact min_eq_right h.le
    · rfl
  have hmin' : ∀ q : ℝ, (if q > 0 then min (0 : ℝ) q else 0) = 0 := by
    intro q; split_ifs with h
    · exact min_eq_left h.le
    · rfl
  constructor
  · unfold torchClip
    simp only [hty, h1, if_false, hs, zero_mul, hmin]
    congr 1
    unfold clipAll clampR
    congr 1; funext r; congr 1; funext x
    rw [neg_zero]; exact min_eq_right (le_max_right _ _)
  · unfold cppClip cppClipValue
    simp only [hty, h1, if_false, hs, zero_mul, hmin', gt_iff_lt, lt_irrefl]

/-- **C32** (average channel maximum). The RPUCuda bound never exceeds the largest magnitude; the torch tile does not
implement the type. -/
theorem C32_average_channel_max (p : ClipPars) (hty : p.type = .averageChannelMax) (w : RMat) :
    torchClip p w = .error .notImplemented ∧
    ∀ M, (∀ r ∈ w, rowAmax r ≤ M) → 0 ≤ M → docBound p w ≤ M := by
  refine ⟨by simp [torchClip, hty], ?_⟩
  intro M hM hM0
  have hb : (w.map rowAmax).sum / w.length ≤ M := by
    rcases Nat.eq_zero_or_pos w.length with h0 | h0
    · rw [h0]; simpa using hM0
    · rw [div_le_iff₀ (by exact_mod_cast h0)]
      have : ∀ l : RMat, (∀ r ∈ l, rowAmax r ≤ M) → (l.map rowAmax).sum ≤ M * l.length := by
        intro l
        induction l with
        | nil => intro _; simp
        | cons r l ih =>
          intro h
          have h1 := ih fun r hr => h r (List.mem_cons_of_mem _ hr)
          have h2 := h r (by simp)
          simp only [List.map_cons, List.sum_cons, List.length_cons, Nat.cast_add, Nat.cast_one]
          linarith
      exact this w hM
  unfold docBound
  simp only [hty, ne_eq, reduceCtorEq, not_false_eq_true, true_and]
  split_ifs
  · exact (min_le_left _ _).trans hb
  · exact hb

/-- Non-vacuity: weights (1/2, -3; 2, -1/4) at bound 1; and the two exceptions on a concrete matrix. -/
example :
    cppClip ⟨.fixedValue, 1, 1⟩ [[1 / 2, -3], [2, -(1 / 4)]] = [[1 / 2, -1], [1, -(1 / 4)]] ∧
    docBound ⟨.averageChannelMax, -1, 1⟩ [[1, -3], [2, 0]] = 5 / 2 ∧
    torchClip ⟨.fixedValue, -1, 1⟩ [[1 / 2, 0]] = .ok [[-1, -1]] ∧
    torchClip ⟨.layerGaussian, -1, 1⟩ [[1, 1]] = .ok [[0, 0]] := by
  refine ⟨?_, ?_, ?_, ?_⟩
  · simp [cppClip, cppClipValue, clipAll, clampR]; norm_num
  · simp [docBound, rowAmax]; norm_num
  · exact (C32_torch_negative_fixed (-1) (by norm_num) [[1 / 2, 0]] 1).1
  · exact (C32_torch_constant_zeroed ⟨.layerGaussian, -1, 1⟩ rfl [[1, 1]] 1 (by simp) (by simp)).1

end Aihw.PostUpdate.Clip
