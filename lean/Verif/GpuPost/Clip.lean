import Verif.GpuPost.Spec
import Verif.GpuIo.Props
import Verif.GpuMod.AsCpu
import Mathlib.Algebra.BigOperators.Group.Finset.Basic

/-!
# Weight clipping on the GPU (C32)
-/
open scoped BigOperators

namespace Aihw.GpuPost
open Aihw.PostUpdate.Clip (ClipPars clampR clipAll stdOf rowAmax cppClip cppClipValue docBound Projected IsNearest
  clipAll_projected docBound_avg_nonneg rowAmax_nonneg)

/-! ## Lemmas -/

theorem matrix_flatten_length {K : Type} (d x : ℕ) (w : ℕ → K) : (matrix d x w).flatten.length = d * x := by
  unfold matrix
  rw [List.length_flatten, List.map_map]
  have : (List.length ∘ fun i => (List.range x).map fun j => w (j * d + i)) = fun _ => x := by
    funext i; simp
  rw [this, List.map_const', List.sum_replicate, List.length_range, smul_eq_mul]

theorem sum_columns (d x : ℕ) (g : ℕ → ℝ) :
    ∑ i ∈ Finset.range d, ∑ j ∈ Finset.range x, g (j * d + i) = ∑ k ∈ Finset.range (d * x), g k := by
  induction x with
  | zero => simp
  | succ x ih =>
    rw [Nat.mul_succ, Finset.sum_range_add, ← ih, ← Finset.sum_add_distrib]
    apply Finset.sum_congr rfl
    intro i _
    rw [Finset.sum_range_succ, mul_comm x d]

theorem list_sum_range (n : ℕ) (g : ℕ → ℝ) : ((List.range n).map g).sum = ∑ i ∈ Finset.range n, g i := by
  induction n with
  | zero => simp
  | succ n ih => rw [List.range_succ, List.map_append, List.sum_append, ih, Finset.sum_range_succ]; simp

theorem matrix_flatten_sum (d x : ℕ) (w : ℕ → ℝ) (f : ℝ → ℝ) :
    ((matrix d x w).flatten.map f).sum = ∑ k ∈ Finset.range (d * x), f (w k) := by
  have h : ∀ l : List (List ℝ), (l.flatten.map f).sum = (l.map fun r => (r.map f).sum).sum := by
    intro l
    induction l with
    | nil => rfl
    | cons r l ih => rw [List.flatten_cons, List.map_append, List.sum_append, ih]; rfl
  rw [h, ← sum_columns d x fun k => f (w k)]
  unfold matrix
  rw [List.map_map, list_sum_range]
  apply Finset.sum_congr rfl
  intro i _
  show (((List.range x).map fun j => w (j * d + i)).map f).sum = _
  rw [List.map_map, ← list_sum_range]
  rfl

theorem std_matrix (d x : ℕ) (w : ℕ → ℝ) :
    stdOf (matrix d x w).flatten = Real.sqrt (|sqDev (d * x) w| / (((d * x : ℕ) : ℝ) - 1)) := by
  unfold stdOf
  have hs : (matrix d x w).flatten.sum = ∑ k ∈ Finset.range (d * x), w k := by
    have := matrix_flatten_sum d x w id
    simpa using this
  simp only [matrix_flatten_length, hs]
  rw [matrix_flatten_sum d x w fun v => (v - (∑ k ∈ Finset.range (d * x), w k) / ((d * x : ℕ) : ℝ)) *
    (v - (∑ k ∈ Finset.range (d * x), w k) / ((d * x : ℕ) : ℝ))]
  have h0 : 0 ≤ sqDev (d * x) w := Finset.sum_nonneg fun k _ => mul_self_nonneg _
  rw [abs_of_nonneg h0]
  rfl

theorem rowMaxR_eq (d x : ℕ) (w : ℕ → ℝ) (i : ℕ) :
    rowMaxR d x w i = rowAmax ((List.range x).map fun j => w (j * d + i)) := by
  unfold rowMaxR rowAmax
  rw [List.map_map]
  have h : ∀ (l : List ℝ) (a : ℝ), l.foldl max a = l.foldr max a := by
    intro l
    induction l with
    | nil => intro a; rfl
    | cons b l ih =>
      intro a
      rw [List.foldl_cons, ih]
      have : ∀ (l : List ℝ) (a b : ℝ), l.foldr max (max a b) = max b (l.foldr max a) := by
        intro l
        induction l with
        | nil => intro a b; exact max_comm a b
        | cons c l ih => intro a b; rw [List.foldr_cons, ih, List.foldr_cons, max_left_comm]
      rw [this]; rfl
  exact (h _ 0).symm

theorem avg_matrix (d x : ℕ) (w : ℕ → ℝ) :
    ((matrix d x w).map rowAmax).sum / (matrix d x w).length = (∑ i ∈ Finset.range d, rowMaxR d x w i) / d := by
  unfold matrix
  rw [List.map_map, list_sum_range, List.length_map, List.length_range]
  congr 1
  exact Finset.sum_congr rfl fun i _ => (rowMaxR_eq d x w i).symm

theorem matrix_clipKernel (d x : ℕ) (b : ℝ) (w : ℕ → ℝ) :
    matrix d x (clipKernel (d * x) b w) = clipAll b (matrix d x w) := by
  unfold matrix clipAll
  rw [List.map_map]
  apply List.map_congr_left
  intro i hi
  show _ = ((List.range x).map fun j => w (j * d + i)).map (clampR (-b) b)
  rw [List.map_map]
  apply List.map_congr_left
  intro j hj
  unfold clipKernel GpuIo.mapTo
  rw [if_pos (GpuMod.idx_lt (List.mem_range.1 hi) (List.mem_range.1 hj))]
  rfl

theorem clipKernel_outside (size : ℕ) (b : ℝ) (w : ℕ → ℝ) (k : ℕ) (hk : size ≤ k) : clipKernel size b w k = w k := by
  unfold clipKernel GpuIo.mapTo
  rw [if_neg (not_lt.2 hk)]

/-- What the GPU computes, with the documented bound. -/
theorem clip_eq (p : ClipPars) (d x : ℕ) (w : ℕ → ℝ) (h2 : 2 ≤ d * x) (hf : p.type = .fixedValue → 0 < p.fixedValue) :
    clip p d x w = .ok (clipKernel (d * x) (docBound p (matrix d x w)) w) := by
  unfold clip docBound
  cases hty : p.type with
  | fixedValue => simp [hf hty, abs_of_pos (hf hty)]
  | layerGaussian =>
    have h1 : ¬ d * x = 1 := by omega
    simp only [gaussBound, if_neg h1, ne_eq, reduceCtorEq, not_false_eq_true, true_and, std_matrix, limited]
  | averageChannelMax =>
    simp only [ne_eq, reduceCtorEq, not_false_eq_true, true_and, limited, avg_matrix]
    rw [abs_of_nonneg]
    have := docBound_avg_nonneg p (matrix d x w)
    rwa [avg_matrix] at this

/-! ## Theorems -/

/-- **C32** (GPU). For every weight matrix with at least two weights and every configuration whose documented bound is
positive, clipping on the GPU replaces every weight by the closest value within the bound, and changes nothing behind
the weights. -/
theorem C32_gpu_clip (p : ClipPars) (d x : ℕ) (w : ℕ → ℝ) (h2 : 2 ≤ d * x) (hpos : 0 < docBound p (matrix d x w)) :
    ∃ w', clip p d x w = .ok w' ∧ Projected (docBound p (matrix d x w)) (matrix d x w) (matrix d x w') ∧
      ∀ k, d * x ≤ k → w' k = w k := by
  refine ⟨_, clip_eq p d x w h2 ?_, ?_, clipKernel_outside _ _ _⟩
  · intro hty
    simpa [docBound, hty] using hpos
  · rw [matrix_clipKernel]
    exact clipAll_projected hpos.le _

/-- **C32** (the GPU's clipping is the CPU's), under the same conditions. -/
theorem C32_gpu_as_cpu (p : ClipPars) (d x : ℕ) (w : ℕ → ℝ) (h2 : 2 ≤ d * x) (hpos : 0 < docBound p (matrix d x w)) :
    ∃ w', clip p d x w = .ok w' ∧ matrix d x w' = cppClip p (matrix d x w) := by
  refine ⟨_, clip_eq p d x w h2 (fun hty => by simpa [docBound, hty] using hpos), ?_⟩
  have e : cppClipValue p (matrix d x w) = some (docBound p (matrix d x w)) := by
    unfold cppClipValue docBound
    cases hty : p.type with
    | fixedValue => simp
    | layerGaussian =>
      have h1 : ¬ (matrix d x w).flatten.length ≤ 1 := by rw [matrix_flatten_length]; omega
      simp only [h1, if_false, ne_eq, reduceCtorEq, not_false_eq_true, true_and, gt_iff_lt]
    | averageChannelMax =>
      simp only [ne_eq, reduceCtorEq, not_false_eq_true, true_and, gt_iff_lt]
      rw [abs_of_nonneg (docBound_avg_nonneg p _)]
  rw [matrix_clipKernel]
  unfold cppClip
  rw [e]
  simp [hpos]

/-- **C32** (exception on the GPU). With layer-Gaussian clipping and a documented bound that is not positive - all weights
equal, so that the standard deviation is 0, or `sigma` not positive - the GPU overwrites every weight by that bound; the
CPU changes nothing. -/
theorem C32_gpu_gaussian_overwrites (p : ClipPars) (hty : p.type = .layerGaussian) (d x : ℕ) (w : ℕ → ℝ)
    (h2 : 2 ≤ d * x) (hneg : docBound p (matrix d x w) ≤ 0) :
    (∃ w', clip p d x w = .ok w' ∧ ∀ k < d * x, w' k = docBound p (matrix d x w)) ∧
      cppClip p (matrix d x w) = matrix d x w := by
  constructor
  · refine ⟨_, clip_eq p d x w h2 (fun h => absurd (hty.symm.trans h) (by decide)), ?_⟩
    intro k hk
    unfold clipKernel GpuIo.mapTo
    rw [if_pos hk]
    unfold clampR
    exact min_eq_right (le_max_of_le_right (by linarith))
  · have h1 : ¬ (matrix d x w).flatten.length ≤ 1 := by rw [matrix_flatten_length]; omega
    have e : cppClipValue p (matrix d x w) = some (docBound p (matrix d x w)) := by
      unfold cppClipValue docBound
      simp only [hty, h1, if_false, ne_eq, reduceCtorEq, not_false_eq_true, true_and, gt_iff_lt]
    unfold cppClip
    rw [e]
    simp [not_lt.2 hneg]

/-- **C32** (exception on the GPU, a matrix of equal weights): layer-Gaussian clipping sets all of them to zero,
whatever `sigma` is; the CPU's are unchanged. -/
theorem C32_gpu_constant_zeroed (p : ClipPars) (hty : p.type = .layerGaussian) (d x : ℕ) (w : ℕ → ℝ) (h2 : 2 ≤ d * x)
    (a : ℝ) (hc : ∀ k < d * x, w k = a) :
    (∃ w', clip p d x w = .ok w' ∧ ∀ k < d * x, w' k = 0) ∧ cppClip p (matrix d x w) = matrix d x w := by
  have hs : stdOf (matrix d x w).flatten = 0 := by
    apply PostUpdate.Clip.stdOf_const (a := a)
    · intro v hv
      obtain ⟨r, hr, hv⟩ := List.mem_flatten.1 hv
      obtain ⟨i, hi, rfl⟩ := List.mem_map.1 hr
      obtain ⟨j, hj, rfl⟩ := List.mem_map.1 hv
      exact hc _ (GpuMod.idx_lt (List.mem_range.1 hi) (List.mem_range.1 hj))
    · intro e
      have := matrix_flatten_length d x w
      rw [e, List.length_nil] at this
      omega
  have hb : docBound p (matrix d x w) = 0 := by
    unfold docBound
    simp only [hty, hs, zero_mul, ne_eq, reduceCtorEq, not_false_eq_true, true_and]
    split_ifs with h
    · exact min_eq_left h.le
    · rfl
  obtain ⟨w', h, hw⟩ := (C32_gpu_gaussian_overwrites p hty d x w h2 hb.le).1
  exact ⟨⟨w', h, fun k hk => (hw k hk).trans hb⟩, (C32_gpu_gaussian_overwrites p hty d x w h2 hb.le).2⟩

/-- **C32** (exception on the GPU, one single weight): its standard deviation is 0/0. Without a fixed value the weight
becomes not-a-number; with one it is clipped to it. The CPU leaves the weight alone in the first case. -/
theorem C32_gpu_single_weight (p : ClipPars) (hty : p.type = .layerGaussian) (d x : ℕ) (w : ℕ → ℝ) (h1 : d * x = 1) :
    (p.fixedValue ≤ 0 → clip p d x w = .error .nanInf ∧ cppClip p (matrix d x w) = matrix d x w) ∧
    (0 < p.fixedValue → ∃ w', clip p d x w = .ok w' ∧
      Projected p.fixedValue (matrix d x w) (matrix d x w') ∧ matrix d x w' = cppClip p (matrix d x w)) := by
  have hl : (matrix d x w).flatten.length ≤ 1 := by rw [matrix_flatten_length]; omega
  have ev : cppClipValue p (matrix d x w) = if p.fixedValue > 0 then some p.fixedValue else none := by
    unfold cppClipValue
    rw [hty]
    exact if_pos hl
  constructor
  · intro hf
    have hf' : ¬ 0 < p.fixedValue := not_lt.2 hf
    simp [clip, hty, gaussBound, h1, hf', cppClip, ev]
  · intro hf
    refine ⟨clipKernel (d * x) p.fixedValue w, by simp [clip, hty, gaussBound, h1, hf], ?_, ?_⟩
    · rw [matrix_clipKernel]; exact clipAll_projected hf.le _
    · rw [matrix_clipKernel]
      simp [cppClip, ev, hf]

/-- **C32** (which tiles clip). A floating-point tile and a pulsed tile with a floating-point device clip alike, except
that a fixed value of zero sets all weights of the pulsed tile to zero and leaves those of the other unchanged; a pulsed
tile with another device leaves a fixed value to the device and refuses all other types. -/
theorem C32_gpu_tiles (dev : ℝ → (ℕ → ℝ) → ℕ → ℝ) (p : ClipPars) (d x : ℕ) (w : ℕ → ℝ) :
    (¬(p.type = .fixedValue ∧ p.fixedValue = 0) → tileClip .pulsedFP dev p d x w = tileClip .simple dev p d x w) ∧
    (p.type = .fixedValue → p.fixedValue = 0 → tileClip .simple dev p d x w = .ok w ∧
      ∃ w', tileClip .pulsedFP dev p d x w = .ok w' ∧ ∀ k < d * x, w' k = 0) ∧
    (p.type = .fixedValue → tileClip .pulsedOther dev p d x w = .ok (dev p.fixedValue w)) ∧
    (p.type ≠ .fixedValue → tileClip .pulsedOther dev p d x w = .error .runtimeError) := by
  refine ⟨fun h => ?_, fun ht h0 => ⟨?_, ?_⟩, fun ht => ?_, fun ht => ?_⟩
  · unfold tileClip
    by_cases ht : p.type = .fixedValue
    · have hne : p.fixedValue ≠ 0 := fun h0 => h ⟨ht, h0⟩
      simp only [ht, if_true, clip]
      by_cases hp : 0 < p.fixedValue
      · rw [if_pos hp, if_pos hp.le]
      · rw [if_neg hp, if_neg (fun h' => hp (lt_of_le_of_ne h' (Ne.symm hne)))]
    · simp only [ht, if_false]
  · simp [tileClip, clip, ht, h0]
  · refine ⟨clipKernel (d * x) |p.fixedValue| w, by simp [tileClip, ht, h0], ?_⟩
    intro k hk
    unfold clipKernel GpuIo.mapTo
    rw [if_pos hk, h0]
    simp [clampR]
  · simp [tileClip, ht]
  · simp [tileClip, ht]

/-- **C32** (the number of threads does not matter). Every order in which the threads of a clipping kernel visit their
elements gives the same result. -/
theorem C32_gpu_order (threads size : ℕ) (hT : 1 ≤ threads) (order : List ℕ)
    (ho : order.Perm (GpuIo.visits threads size)) (b : ℝ) (w : ℕ → ℝ) :
    GpuIo.loopIn order (fun _ v => clampR (-b) b v) w = clipKernel size b w :=
  (GpuIo.C99_loop_is_map threads size hT order ho (fun _ v => clampR (-b) b v) w w).2

end Aihw.GpuPost
