import Verif.GpuDecay.Spec

/-!
# Decay, diffusion, clipping and reset of the weights on the GPU (C89)
-/
namespace Aihw.GpuDecay

open Aihw.Pulsed

variable {K : Type} [Field K] [LinearOrder K] [IsStrictOrderedRing K] [FloorRing K]

/-! ## Lemmas -/

theorem rowMajor_at (x d i j : ℕ) (hi : i < d) : rowMajor x d (j * d + i) = i * x + j := by
  unfold rowMajor
  rw [Nat.mul_comm j d, Nat.mul_add_mod, Nat.mod_eq_of_lt hi, Nat.mul_add_div (by omega), Nat.div_eq_of_lt hi]
  simp

theorem at_lt (x d i j : ℕ) (hi : i < d) (hj : j < x) : j * d + i < x * d := by
  have : (j + 1) * d ≤ x * d := Nat.mul_le_mul_right d hj
  rw [Nat.add_mul] at this
  omega

theorem flat_lt (x d i j : ℕ) (hi : i < d) (hj : j < x) : i * x + j < x * d := by
  rw [Nat.mul_comm x d]; exact at_lt d x j i hj hi

theorem sat_eq (c : Dev K) (i j : ℕ) (hi : i < c.dSize) (v : K) :
    sat (populate c) (j * c.dSize + i) v = bounded (cellAt c i j) v := by
  unfold sat bounded cellAt populate
  simp only [rowMajor_at _ _ _ _ hi]
  rcases lt_or_ge (c.cell (i * c.xSize + j)).maxB v with h | h
  · rw [if_pos h, min_eq_left h.le]
    split_ifs with h2
    · rw [max_eq_left h2.le]
    · rw [max_eq_right (not_lt.1 h2)]
  · rw [if_neg (not_lt.2 h), min_eq_right h]
    split_ifs with h2
    · rw [max_eq_left h2.le]
    · rw [max_eq_right (not_lt.1 h2)]

theorem bias_eq (c : Dev K) (i j : ℕ) (hi : i < c.dSize) (hj : j < c.xSize) :
    ((populate c).bias.elim 0 fun b => b (j * c.dSize + i)) = (cellAt c i j).resetB := by
  unfold populate cellAt
  simp only
  split_ifs with h
  · show (c.cell (rowMajor c.xSize c.dSize (j * c.dSize + i))).resetB = _
    rw [rowMajor_at _ _ _ _ hi]
  · simp only [List.any_eq_true, List.mem_range, decide_eq_true_eq, not_exists, not_and, not_not] at h
    exact (h _ (flat_lt _ _ _ _ hi hj)).symm

theorem kept_onMem (c : Dev K) (f : (ℕ → K) → ℕ → K) (o : List ℕ) (n : ℕ → K) (m : Mem K) (i j : ℕ) :
    kept c (onMem (populate c) f o n m) i j =
      f (if persistent c.kd c.par then m.per else m.vis) (j * c.dSize + i) := by
  unfold kept onMem gpuNoise populate
  simp only
  by_cases h : persistent c.kd c.par = true <;> by_cases h2 : implementsWriteNoise c.kd = true <;> simp [h, h2]

theorem kept_eq (c : Dev K) (m : Mem K) (i j : ℕ) :
    (if persistent c.kd c.par then m.per else m.vis) (j * c.dSize + i) = kept c m i j := by
  unfold kept; split_ifs <;> rfl

theorem loopIn_at (threads size : ℕ) (hT : 1 ≤ threads) (order : List ℕ) (ho : order.Perm (GpuIo.visits threads size))
    (body : ℕ → K → K) (w : ℕ → K) (t : ℕ) :
    GpuIo.loopIn order body w t = if t < size then body t (w t) else w t := by
  rw [(GpuIo.C99_loop_is_map threads size hT order ho body w w).2]
  rfl

theorem resetKernel_at (g : GDev K) (nr fl : Option (ℕ → K)) (prob : K) (order : List ℕ) (off roff : ℕ) (w : ℕ → K)
    (t : ℕ) :
    resetKernel g nr fl prob order off roff w t =
      if off ≤ t ∧ t - off ∈ order ∧
          (fl.elim 0 fun u => u (roff + (t - off))) < prob then
        sat g t ((g.bias.elim 0 fun b => b t) +
          (nr.elim 0 fun z => z (roff + (t - off))))
      else w t := by
  unfold resetKernel
  induction order generalizing w with
  | nil => simp
  | cons a l ih =>
    rw [List.foldl_cons, ih]
    by_cases hin : off ≤ t ∧ t - off ∈ l ∧ (fl.elim 0 fun u => u (roff + (t - off))) < prob
    · rw [if_pos hin, if_pos ⟨hin.1, List.mem_cons_of_mem _ hin.2.1, hin.2.2⟩]
    · rw [if_neg hin]
      by_cases hta : t = off + a
      · subst hta
        have e : off + a - off = a := by omega
        rw [e] at hin ⊢
        by_cases hp : (fl.elim 0 fun u => u (roff + a)) < prob
        · simp [hp]
        · simp [hp]
      · have : ¬ (off ≤ t ∧ t - off ∈ a :: l ∧ (fl.elim 0 fun u => u (roff + (t - off))) < prob) := by
          rintro ⟨h1, h2, h3⟩
          rcases List.mem_cons.1 h2 with h2 | h2
          · omega
          · exact hin ⟨h1, h2, h3⟩
        rw [if_neg this]
        by_cases hp : (fl.elim 0 fun u => u (roff + a)) < prob
        · simp only [hp, if_true, Function.update_of_ne hta]
        · simp only [hp, if_false]

/-! ## Theorems -/

/-- **C89** (GPU, decay). For every number of threads and in every order, with and without persistent weights: the decay moves
the weight that the device keeps for each connection towards its reset bias, by its own decay factor, within its bounds; the
last input stays if the bias is not to decay. -/
theorem C89_gpu_decay (c : Dev K) (alpha : Option K) (nb : Bool) (threads : ℕ) (hT : 1 ≤ threads) (o1 o2 : List ℕ)
    (h1 : o1.Perm (GpuIo.visits threads (decaySize (populate c) nb))) (n : ℕ → K) (m : Mem K) (i j : ℕ) (hi : i < c.dSize)
    (hj : j < c.xSize) :
    kept c (gpuDecay (populate c) alpha o1 o2 n m) i j =
      if nb = true ∧ j = c.xSize - 1 then kept c m i j
      else bounded (cellAt c i j) ((cellAt c i j).resetB + (kept c m i j - (cellAt c i j).resetB) *
        alpha.elim (cellAt c i j).decay fun a => 1 + a * ((cellAt c i j).decay - 1)) := by
  unfold gpuDecay
  rw [kept_onMem, loopIn_at threads _ hT o1 h1]
  dsimp only
  rw [bias_eq c i j hi hj, kept_eq]
  have hd : (populate c).decay (j * c.dSize + i) = (cellAt c i j).decay := by
    unfold populate cellAt
    simp only [rowMajor_at _ _ _ _ hi]
  have hlt : j * c.dSize + i < decaySize (populate c) nb ↔ ¬ (nb = true ∧ j = c.xSize - 1) := by
    have hx : (populate c).x = c.xSize := rfl
    have hdd : (populate c).d = c.dSize := rfl
    have h0 := at_lt c.xSize c.dSize i j hi hj
    unfold decaySize
    rw [hx, hdd]
    cases nb with
    | false => simpa using h0
    | true =>
      have e : c.xSize * c.dSize - c.dSize = (c.xSize - 1) * c.dSize := by rw [Nat.sub_mul, one_mul]
      simp only [if_true, true_and]
      rw [e]
      constructor
      · intro h hc
        rw [hc] at h
        omega
      · intro h
        exact at_lt (c.xSize - 1) c.dSize i j hi (by omega)
  by_cases h : nb = true ∧ j = c.xSize - 1
  · rw [if_pos h, if_neg (fun hh => hlt.1 hh h)]
  · rw [if_neg h, if_pos (hlt.2 h), sat_eq c i j hi, hd, add_comm]

/-- **C89** (GPU, diffusion). The diffusion adds to the weight that the device keeps for each connection its own diffusion rate
times its own random number, within its bounds. (If no connection diffuses, nothing changes at all, not even a weight that
is outside its bounds.) -/
theorem C89_gpu_diffuse (c : Dev K) (r : ℕ → K) (threads : ℕ) (hT : 1 ≤ threads) (o1 o2 : List ℕ)
    (h1 : o1.Perm (GpuIo.visits threads (c.xSize * c.dSize))) (n : ℕ → K) (m : Mem K) (i j : ℕ) (hi : i < c.dSize)
    (hj : j < c.xSize) :
    ((∃ k < c.xSize * c.dSize, (c.cell k).diff ≠ 0) → kept c (gpuDiffuse (populate c) r o1 o2 n m) i j =
      bounded (cellAt c i j) (kept c m i j + (cellAt c i j).diff * r (j * c.dSize + i))) ∧
    ((∀ k < c.xSize * c.dSize, (c.cell k).diff = 0) → gpuDiffuse (populate c) r o1 o2 n m = m) := by
  constructor
  · rintro ⟨k, hk, hne⟩
    have hdf : (populate c).diff = some fun t => (c.cell (rowMajor c.xSize c.dSize t)).diff := by
      unfold populate
      simp only
      rw [if_pos]
      simp only [List.any_eq_true, List.mem_range, decide_eq_true_eq]
      exact ⟨k, hk, hne⟩
    unfold gpuDiffuse
    rw [hdf]
    simp only
    rw [kept_onMem, loopIn_at threads _ hT o1 h1, if_pos (at_lt _ _ _ _ hi hj), kept_eq, sat_eq c i j hi,
      rowMajor_at _ _ _ _ hi, mul_comm]
    rfl
  · intro h
    have hdf : (populate c).diff = none := by
      unfold populate
      simp only
      rw [if_neg]
      simp only [List.any_eq_true, List.mem_range, decide_eq_true_eq]
      rintro ⟨k, hk, hne⟩
      exact hne (h k hk)
    unfold gpuDiffuse
    rw [hdf]

/-- **C89** (GPU, clipping). The weight that the device keeps is brought within its bounds and, unless the limit is negative,
within the limit. -/
theorem C89_gpu_clip (c : Dev K) (clip : K) (threads : ℕ) (hT : 1 ≤ threads) (o1 o1' o2 : List ℕ)
    (h1 : o1.Perm (GpuIo.visits threads (c.xSize * c.dSize))) (h1' : o1'.Perm (GpuIo.visits threads (c.xSize * c.dSize)))
    (n : ℕ → K) (m : Mem K) (i j : ℕ) (hi : i < c.dSize) (hj : j < c.xSize) :
    kept c (gpuClip (populate c) clip o1 o1' o2 n m) i j =
      if clip < 0 then bounded (cellAt c i j) (kept c m i j)
      else min (max (bounded (cellAt c i j) (kept c m i j)) (-clip)) clip := by
  have hl := at_lt _ _ _ _ hi hj
  unfold gpuClip
  rw [kept_onMem]
  rcases lt_or_ge clip 0 with h | h
  · rw [if_pos h]
    simp only [not_le.2 h, if_false]
    rw [loopIn_at threads _ hT o1 h1, if_pos hl, kept_eq, sat_eq c i j hi]
  · rw [if_neg (not_lt.2 h)]
    simp only [h, if_true]
    rw [loopIn_at threads _ hT o1' h1', if_pos hl, loopIn_at threads _ hT o1 h1, if_pos hl, kept_eq, sat_eq c i j hi,
      abs_of_nonneg h]

/-- **C89** (GPU, write noise). After each of the operations the visible weight of a device with write noise is the weight it
keeps plus `write_noise_std` times a random number - on the CPU it is `write_noise_std * dw_min` times a random number. -/
theorem C89_gpu_noise (c : Dev K) (hp : persistent c.kd c.par = true) (hw : implementsWriteNoise c.kd = true)
    (threads : ℕ) (hT : 1 ≤ threads) (f : (ℕ → K) → ℕ → K) (o : List ℕ)
    (ho : o.Perm (GpuIo.visits threads (c.xSize * c.dSize))) (n : ℕ → K) (m : Mem K) (i j : ℕ) (hi : i < c.dSize)
    (hj : j < c.xSize) (s : CS K) (h : K → K) (z : K) (hs : 0 < c.par.writeNoise * c.par.dwMin) :
    (onMem (populate c) f o n m).vis (j * c.dSize + i) =
        kept c (onMem (populate c) f o n m) i j + c.par.writeNoise * n (j * c.dSize + i) ∧
      (onStored c.kd c.par h s z).vis = (onStored c.kd c.par h s z).per + c.par.writeNoise * c.par.dwMin * z := by
  constructor
  · rw [kept_onMem]
    unfold onMem gpuNoise
    have e1 : (populate c).kd = c.kd := rfl
    have e2 : (populate c).par = c.par := rfl
    rw [e1, e2, hp, hw]
    simp only [Bool.not_true, Bool.or_false, Bool.false_eq_true, if_false, if_true]
    rw [(GpuIo.C99_loop_is_map threads (c.xSize * c.dSize) hT o ho _ _ _).1]
    unfold GpuIo.mapTo
    rw [if_pos (at_lt _ _ _ _ hi hj)]
    beta_reduce
    rw [one_mul]
  · unfold onStored writeNoise scaledNoise
    rw [if_pos hp, hw, hp]
    simp only [Bool.and_self, if_true]
    rw [if_pos hs]

end Aihw.GpuDecay
