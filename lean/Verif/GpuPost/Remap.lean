import Verif.GpuPost.Spec
import Verif.GpuIo.Props
import Verif.GpuMod.AsCpu
import Verif.PostUpdate.Props

/-!
# Weight remapping on the GPU (C12)
-/
namespace Aihw.GpuPost
open Aihw.PostUpdate (RemapPars RemapType orOne cppRemap cppLayer cppChannel cppBounded minScale boundedScale)

/-! ## Kernels -/

theorem remapLoop_fst (order : List ℕ) (d : ℕ) (wB sB : ℕ → ℚ → ℚ) (ws : Arr × Arr) :
    (remapLoop order d wB sB ws).1 = GpuIo.loopIn order wB ws.1 := by
  unfold remapLoop GpuIo.loopIn
  induction order generalizing ws with
  | nil => rfl
  | cons a l ih => exact ih _

theorem remapLoop_snd (order : List ℕ) (hn : order.Nodup) (d : ℕ) (wB sB : ℕ → ℚ → ℚ) (ws : Arr × Arr) (i : ℕ) :
    (remapLoop order d wB sB ws).2 i = if i ∈ order ∧ i < d then sB i (ws.2 i) else ws.2 i := by
  unfold remapLoop
  induction order generalizing ws with
  | nil => simp
  | cons a l ih =>
    obtain ⟨ha, hl⟩ := List.nodup_cons.mp hn
    rw [List.foldl_cons, ih hl]
    by_cases h : i = a
    · subst h
      rw [if_neg (fun h => ha h.1)]
      by_cases hd : i < d
      · simp [hd]
      · simp [hd]
    · have : ∀ v, (if a < d then Function.update ws.2 a v else ws.2) i = ws.2 i := by
        intro v
        by_cases hd : a < d
        · rw [if_pos hd, Function.update_of_ne h]
        · rw [if_neg hd]
      simp only [this, List.mem_cons, h, false_or]

/-- **C12** (the number of threads does not matter). Every order in which the threads of a remapping kernel visit
their elements gives the same weights and scales: every weight and every scale is rewritten once. -/
theorem C12_gpu_order (threads d x : ℕ) (hT : 1 ≤ threads) (hx : 1 ≤ x) (order : List ℕ)
    (ho : order.Perm (GpuIo.visits threads (x * d))) (wBody sBody : ℕ → ℚ → ℚ) (ws : Arr × Arr) :
    remapLoop order d wBody sBody ws = remapKernel d (x * d) wBody sBody ws ∧
    (∀ k < x * d, (remapKernel d (x * d) wBody sBody ws).1 k = wBody k (ws.1 k)) ∧
    (∀ i < d, (remapKernel d (x * d) wBody sBody ws).2 i = sBody i (ws.2 i)) := by
  have hle : d ≤ x * d := Nat.le_mul_of_pos_left d hx
  refine ⟨Prod.ext ?_ ?_, fun k hk => ?_, fun i hi => ?_⟩
  · rw [remapLoop_fst]
    exact (GpuIo.C99_loop_is_map threads (x * d) hT order ho wBody ws.1 ws.1).2
  · funext i
    rw [remapLoop_snd _ (ho.nodup_iff.mpr (GpuIo.nodup_visits threads _))]
    have hm : i ∈ order ↔ i < x * d := by rw [ho.mem_iff, GpuIo.mem_visits threads _ i hT]
    show (if i ∈ order ∧ i < d then _ else _) = if i < x * d ∧ i < d then _ else _
    simp only [hm]
  · show (if k < x * d then _ else _) = _
    rw [if_pos hk]
  · show (if i < x * d ∧ i < d then _ else _) = _
    rw [if_pos ⟨lt_of_lt_of_le hi hle, hi⟩]

/-! ## Lemmas -/

theorem orOne_pos (a : ℚ) : 0 < orOne a := by
  unfold orOne
  split_ifs with h
  · exact h
  · norm_num

theorem idx_mod {d j i : ℕ} (hi : i < d) : (j * d + i) % d = i := by
  rw [mul_comm, Nat.mul_add_mod, Nat.mod_eq_of_lt hi]

theorem kernel_w {d x i j : ℕ} (hi : i < d) (hj : j < x) (wB sB : ℕ → ℚ → ℚ) (ws : Arr × Arr) :
    (remapKernel d (x * d) wB sB ws).1 (j * d + i) = wB (j * d + i) (ws.1 (j * d + i)) := by
  show (if j * d + i < x * d then _ else _) = _
  rw [if_pos (by rw [mul_comm x d]; exact GpuMod.idx_lt hi hj)]

theorem kernel_s {d x i : ℕ} (hi : i < d) (hx : 1 ≤ x) (wB sB : ℕ → ℚ → ℚ) (ws : Arr × Arr) :
    (remapKernel d (x * d) wB sB ws).2 i = sB i (ws.2 i) := by
  show (if i < x * d ∧ i < d then _ else _) = _
  rw [if_pos ⟨lt_of_lt_of_le hi (Nat.le_mul_of_pos_left d hx), hi⟩]

theorem rowMax_eq (d x : ℕ) (w : Arr) (i : ℕ) :
    rowMax d x w i = absMax ((List.range x).map fun j => w (j * d + i)) := rfl

theorem layerMax_eq (d x : ℕ) (w : Arr) : layerMax (x * d) w = absMax ((matrix d x w).map absMax) := by
  apply le_antisymm
  · apply absMax_le (absMax_nonneg _)
    intro a ha
    obtain ⟨k, hk, rfl⟩ := List.mem_map.1 ha
    obtain ⟨i, j, hi, hj, rfl⟩ := GpuMod.idx_of (d := d) (n := x) (by rw [mul_comm]; exact List.mem_range.1 hk)
    refine (abs_le_absMax (v := (List.range x).map fun j => w (j * d + i))
      (List.mem_map.2 ⟨j, List.mem_range.2 hj, rfl⟩)).trans ?_
    refine (le_abs_self _).trans (abs_le_absMax ?_)
    exact List.mem_map.2 ⟨_, List.mem_map.2 ⟨i, List.mem_range.2 hi, rfl⟩, rfl⟩
  · apply absMax_le (absMax_nonneg _)
    intro a ha
    obtain ⟨r, hr, rfl⟩ := List.mem_map.1 ha
    obtain ⟨i, hi, rfl⟩ := List.mem_map.1 hr
    rw [abs_of_nonneg (absMax_nonneg _)]
    apply absMax_le (absMax_nonneg _)
    intro b hb
    obtain ⟨j, hj, rfl⟩ := List.mem_map.1 hb
    apply abs_le_absMax
    refine List.mem_map.2 ⟨_, List.mem_range.2 ?_, rfl⟩
    rw [mul_comm x d]
    exact GpuMod.idx_lt (List.mem_range.1 hi) (List.mem_range.1 hj)

theorem vec_eq {d : ℕ} {s : Vec} (hs : s.length = d) : s = (List.range d).map fun i => s.getD i 0 := by
  apply List.ext_getElem
  · simp [hs]
  · intro i h1 h2
    simp [List.getD_eq_getElem?_getD, List.getElem?_eq_getElem h1]

theorem matrix_map_rows {d x : ℕ} (w : Arr) (f : ℕ → ℚ → ℚ) (w' : Arr)
    (h : ∀ i < d, ∀ j < x, w' (j * d + i) = f i (w (j * d + i))) (g : Vec → ℕ → Vec)
    (hg : ∀ (r : Vec) (i : ℕ), i < d → g r i = r.map (f i)) :
    matrix d x w' = List.zipWith g (matrix d x w) (List.range d) := by
  unfold matrix
  rw [List.zipWith_map_left, List.zipWith_self]
  apply List.map_congr_left
  intro i hi
  have hi := List.mem_range.1 hi
  rw [hg _ _ hi, List.map_map]
  apply List.map_congr_left
  intro j hj
  exact h i hi j (List.mem_range.1 hj)

/-- The smallest scale on the GPU, for positive scales. -/
theorem foldl_max_neg (l : Vec) (a : ℚ) : (l.map fun v => -v).foldl max (-a) = -(l.foldl min a) := by
  induction l generalizing a with
  | nil => rfl
  | cons b l ih => rw [List.map_cons, List.foldl_cons, max_neg_neg, ih, List.foldl_cons]

theorem foldl_min_mem (l : Vec) (a : ℚ) : l.foldl min a = a ∨ l.foldl min a ∈ l := by
  induction l generalizing a with
  | nil => exact .inl rfl
  | cons b l ih =>
    rw [List.foldl_cons]
    rcases ih (min a b) with h | h
    · rcases min_choice a b with h' | h'
      · left; rw [h, h']
      · right; rw [h, h']; simp
    · right; exact List.mem_cons_of_mem _ h

theorem gpuMinScale_eq (d : ℕ) (hd : 1 ≤ d) (range ref : ℚ) (s : Vec) (hs : s.length = d) (hpos : ∀ v ∈ s, 0 < v)
    (hr : 0 < range) (href : 0 ≤ ref) : gpuMinScale d range ref (fun i => s.getD i 0) = minScale ref s := by
  have h0 : s.headD 0 = s.getD 0 0 := by cases s <;> rfl
  have hf : ((List.range d).map fun i => -s.getD i 0).foldl max (-s.getD 0 0) = -(s.foldl min (s.getD 0 0)) := by
    conv_rhs => rw [vec_eq hs]
    rw [← foldl_max_neg, List.map_map]
    congr 1
    rw [← vec_eq hs]
  have hm : 0 < s.foldl min (s.getD 0 0) := by
    have hg : s.getD 0 0 ∈ s := by
      cases s with
      | nil => simp at hs; omega
      | cons a l => simp
    rcases foldl_min_mem s (s.getD 0 0) with h | h
    · rw [h]; exact hpos _ hg
    · exact hpos _ h
  unfold gpuMinScale minScale
  rw [if_pos (abs_pos.2 hr.ne'), h0, hf, abs_neg, abs_of_pos hm, max_eq_left hm.le]
  by_cases hz : ref = 0
  · subst hz
    rw [if_neg (fun h => h.2 rfl), max_eq_left hm.le]
  · rw [if_pos ⟨hm, hz⟩]

theorem rangeScale_eq (range mn m s : ℚ) (hr : 0 < range) (hm : 0 ≤ m) (hs : 0 < s) :
    rangeScale range mn m s = boundedScale range mn m s := by
  have e : |s| * orOne |m| = if m > 0 then m * s else s := by
    rw [abs_of_pos hs, abs_of_nonneg hm]
    unfold orOne
    split_ifs with h
    · ring
    · ring
  unfold rangeScale boundedScale
  simp only [e, abs_of_pos hr, mul_comm range mn, gt_iff_lt]

/-! ## The GPU's remapping is the CPU's -/

/-- **C12** (the GPU's remapping is the CPU's). For every weight matrix with at least one input and output, and - with a
bounded scale range - positive scales and a reference that is not negative: the tile on the GPU gives the weights and
scales of the CPU tile, and refuses what it refuses. -/
theorem C12_gpu_as_cpu (k : TileKind) (hk : k ≠ .pulsedOther) (p : RemapPars) (d x : ℕ) (hd : 1 ≤ d) (hx : 1 ≤ x)
    (w : Arr) (s : Vec)
    (hr : p.type = .channelwise → 0 < p.maxScaleRange → (∀ v ∈ s, 0 < v) ∧ 0 ≤ p.maxScaleRef) :
    (tileRemap k p d x w s).map (fun r => (matrix d x r.1, r.2)) = cppRemap p (matrix d x w) s := by
  have hml : (matrix d x w).length = d := by simp [matrix]
  unfold tileRemap cppRemap
  rw [hml, if_neg hk]
  by_cases hs : s.length = d
  swap
  · simp [hs, Except.map]
  simp only [hs, ne_eq, not_true_eq_false, if_false]
  have hse := vec_eq hs
  cases hty : p.type with
  | layerwise =>
    unfold remap
    simp only [hty]
    by_cases hw : p.remappedWmax = 0
    · simp [hw, Except.map]
    · simp only [hw, if_false, Except.map]
      congr 1
      unfold cppLayer kScale
      have ha : |layerMax (x * d) w| = absMax ((matrix d x w).map absMax) := by
        rw [layerMax_eq, abs_of_nonneg (absMax_nonneg _)]
      dsimp only
      rw [ha]
      set A := absMax ((matrix d x w).map absMax) / p.remappedWmax with hA
      have e1 : ∀ c : ℚ, matrix d x (remapKernel d (x * d) (fun _ v => v / c) (fun _ v => v * c)
          (w, fun i => s.getD i 0)).1 = (matrix d x w).map fun r => r.map (· / c) := by
        intro c
        unfold matrix
        rw [List.map_map]
        apply List.map_congr_left
        intro i hi
        show _ = ((List.range x).map fun j => w (j * d + i)).map (· / c)
        rw [List.map_map]
        apply List.map_congr_left
        intro j hj
        exact kernel_w (List.mem_range.1 hi) (List.mem_range.1 hj) _ _ _
      have e2 : ∀ c : ℚ, (List.range d).map (remapKernel d (x * d) (fun _ v => v / c) (fun _ v => v * c)
          (w, fun i => s.getD i 0)).2 = s.map (· * c) := by
        intro c
        conv_rhs => rw [hse]
        rw [List.map_map]
        apply List.map_congr_left
        intro i hi
        exact kernel_s (List.mem_range.1 hi) hx _ _ _
      rw [e1, e2]
      by_cases hp : A > 0
      · rw [if_pos hp]
        unfold orOne
        rw [if_pos hp]
      · rw [if_neg hp]
        unfold orOne
        rw [if_neg hp]
        simp
  | channelwise =>
    unfold remap
    simp only [hty]
    by_cases hmr : p.maxScaleRange ≤ 0
    · simp only [hmr, if_true]
      by_cases hw : p.remappedWmax = 0
      · simp [hw, Except.map]
      · simp only [hw, if_false, Except.map]
        congr 1
        unfold cppChannel kRows
        have ha : ∀ i, |rowMax d x w i| = absMax ((List.range x).map fun j => w (j * d + i)) := fun i => by
          rw [rowMax_eq, abs_of_nonneg (absMax_nonneg _)]
        simp only [ha]
        apply Prod.ext
        · unfold matrix
          dsimp only
          rw [List.map_map, List.zipWith_map, List.zipWith_self]
          apply List.map_congr_left
          intro i hi
          show _ = ((List.range x).map fun j => w (j * d + i)).map _
          rw [List.map_map]
          apply List.map_congr_left
          intro j hj
          rw [kernel_w (List.mem_range.1 hi) (List.mem_range.1 hj), idx_mod (List.mem_range.1 hi)]
          rfl
        · dsimp only
          conv_rhs => rw [hse]
          unfold matrix
          rw [List.map_map, List.zipWith_map, List.zipWith_self]
          apply List.map_congr_left
          intro i hi
          rw [kernel_s (List.mem_range.1 hi) hx, Nat.mod_eq_of_lt (List.mem_range.1 hi)]
          rfl
    · have hmr' : 0 < p.maxScaleRange := not_le.1 hmr
      simp only [hmr, if_false]
      by_cases hw : p.remappedWmax = 1
      swap
      · simp [hw, Except.map]
      simp only [hw, not_true_eq_false, if_false]
      obtain ⟨hpos, href⟩ := hr hty hmr'
      have hmn := gpuMinScale_eq d hd p.maxScaleRange p.maxScaleRef s hs hpos hmr' href
      have hget : ∀ i < d, 0 < s.getD i 0 := by
        intro i hi
        apply hpos
        rw [List.getD_eq_getElem _ _ (by omega)]
        exact List.getElem_mem _
      have hns : ∀ i < d, rangeScale p.maxScaleRange (minScale p.maxScaleRef s) (rowMax d x w i) (s.getD i 0) =
          boundedScale p.maxScaleRange (minScale p.maxScaleRef s)
            (absMax ((List.range x).map fun j => w (j * d + i))) (s.getD i 0) :=
        fun i hi => rangeScale_eq _ _ _ _ hmr' (absMax_nonneg _) (hget i hi)
      have hz : List.zipWith (fun r o => boundedScale p.maxScaleRange (minScale p.maxScaleRef s) (absMax r) o)
          (matrix d x w) s = (List.range d).map fun i =>
            rangeScale p.maxScaleRange (minScale p.maxScaleRef s) (rowMax d x w i) (s.getD i 0) := by
        conv_lhs => arg 3; rw [hse]
        unfold matrix
        rw [List.zipWith_map, List.zipWith_self]
        apply List.map_congr_left
        intro i hi
        exact (hns i (List.mem_range.1 hi)).symm
      unfold cppBounded
      dsimp only
      rw [hmn, hz, List.any_map]
      by_cases hany : (List.range d).any (fun i =>
          rangeScale p.maxScaleRange (minScale p.maxScaleRef s) (rowMax d x w i) (s.getD i 0) = 0) = true
      · have : (List.range d).any ((fun v : ℚ => decide (v = 0)) ∘ fun i =>
          rangeScale p.maxScaleRange (minScale p.maxScaleRef s) (rowMax d x w i) (s.getD i 0)) = true := hany
        rw [if_pos hany, if_pos this]
        rfl
      · have : ¬(List.range d).any ((fun v : ℚ => decide (v = 0)) ∘ fun i =>
          rangeScale p.maxScaleRange (minScale p.maxScaleRef s) (rowMax d x w i) (s.getD i 0)) = true := hany
        rw [if_neg hany, if_neg this]
        show Except.ok _ = Except.ok _
        congr 1
        unfold kRange
        dsimp only
        rw [hmn]
        apply Prod.ext
        · dsimp only
          conv_rhs => arg 3; arg 1; rw [hse]
          unfold matrix
          rw [List.zip_map', List.zipWith_map, List.zipWith_self]
          apply List.map_congr_left
          intro i hi
          show _ = ((List.range x).map fun j => w (j * d + i)).map _
          rw [List.map_map]
          apply List.map_congr_left
          intro j hj
          rw [kernel_w (List.mem_range.1 hi) (List.mem_range.1 hj), idx_mod (List.mem_range.1 hi),
            abs_of_pos (hget i (List.mem_range.1 hi))]
          rfl
        · dsimp only
          apply List.map_congr_left
          intro i hi
          rw [kernel_s (List.mem_range.1 hi) hx, Nat.mod_eq_of_lt (List.mem_range.1 hi)]

end Aihw.GpuPost
