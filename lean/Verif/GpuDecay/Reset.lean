import Verif.GpuDecay.Props

/-!
# Resetting columns on the GPU (C89)
-/
namespace Aihw.GpuDecay

open Aihw.Pulsed

variable {K : Type} [Field K] [LinearOrder K] [IsStrictOrderedRing K] [FloorRing K]

theorem mem_visits' (threads n : ℕ) (hT : 1 ≤ threads) (o : List ℕ) (ho : o.Perm (GpuIo.visits threads n)) (t : ℕ) :
    t ∈ o ↔ t < n := by
  rw [ho.mem_iff, GpuIo.mem_visits threads n t hT]

/-- One launch, in words. -/
theorem launch_at (c : Dev K) (prob : K) (u z : ℕ → K) (threads cnt : ℕ) (hT : 1 ≤ threads) (o : List ℕ)
    (ho : o.Perm (GpuIo.visits threads cnt)) (off roff : ℕ) (w : ℕ → K) (hp : 0 < prob) (i j : ℕ) (hi : i < c.dSize)
    (hj : j < c.xSize) :
    resetKernel (populate c) (if 0 < c.par.resetStd then some fun k => c.par.resetStd * z k else none)
        (if prob < 1 then some u else none) prob o off roff w (j * c.dSize + i) =
      if (off ≤ j * c.dSize + i ∧ j * c.dSize + i < off + cnt) ∧
          (1 ≤ prob ∨ u (roff + (j * c.dSize + i - off)) < prob) then
        bounded (cellAt c i j) ((cellAt c i j).resetB +
          max c.par.resetStd 0 * z (roff + (j * c.dSize + i - off)))
      else w (j * c.dSize + i) := by
  rw [resetKernel_at, bias_eq c i j hi hj, sat_eq c i j hi]
  have e1 : (Option.elim (if 0 < c.par.resetStd then some fun k => c.par.resetStd * z k else none) 0
      fun z => z (roff + (j * c.dSize + i - off))) = max c.par.resetStd 0 * z (roff + (j * c.dSize + i - off)) := by
    split_ifs with h
    · rw [max_eq_left h.le]; rfl
    · rw [max_eq_right (not_lt.1 h), zero_mul]; rfl
  have e2 : (Option.elim (if prob < 1 then some u else none) 0 fun u => u (roff + (j * c.dSize + i - off))) < prob ↔
      (1 ≤ prob ∨ u (roff + (j * c.dSize + i - off)) < prob) := by
    split_ifs with h
    · show u _ < prob ↔ _
      constructor
      · exact Or.inr
      · rintro (h' | h')
        · exact absurd h (not_lt.2 h')
        · exact h'
    · show (0 : K) < prob ↔ _
      exact ⟨fun _ => Or.inl (not_lt.1 h), fun _ => hp⟩
  rw [e1]
  congr 1
  rw [e2, mem_visits' threads cnt hT o ho]
  apply propext
  constructor
  · rintro ⟨a, b, d⟩
    exact ⟨⟨a, by omega⟩, d⟩
  · rintro ⟨⟨a, b⟩, d⟩
    exact ⟨a, by omega, d⟩

/-- Where the random number of a connection is: at its own place if all columns are reset, otherwise at its place within the
columns that are. -/
def drawAt (x d start : ℕ) (cols : ℤ) (i j : ℕ) : ℕ :=
  (if cols < 0 ∨ (x : ℤ) ≤ cols then j else (j + x - start) % x) * d + i

/-- **C89** (GPU, reset). For every number of threads and in every order: exactly the weights in the given columns, with
wrap-around, for which the draw is below the probability become the reset bias plus the reset noise, within the bounds; every
other weight stays. Each weight has its own random numbers. -/
theorem C89_gpu_reset (c : Dev K) (start : ℕ) (hs : start < c.xSize) (cols : ℤ) (prob : K) (hp : 0 < prob) (u z : ℕ → K)
    (threads : ℕ) (hT : 1 ≤ threads) (o1 o2 : ℕ → List ℕ) (h1 : ∀ k, (o1 k).Perm (GpuIo.visits threads k))
    (h2 : ∀ k, (o2 k).Perm (GpuIo.visits threads k)) (o3 : List ℕ) (n : ℕ → K) (m : Mem K) (i j : ℕ) (hi : i < c.dSize)
    (hj : j < c.xSize) :
    let r := drawAt c.xSize c.dSize start cols i j
    (InColumns c.xSize start cols j ∧ (1 ≤ prob ∨ u r < prob) →
      kept c (gpuReset (populate c) start cols prob u z o1 o2 o3 n m) i j =
        bounded (cellAt c i j) ((cellAt c i j).resetB + max c.par.resetStd 0 * z r)) ∧
    (¬ (InColumns c.xSize start cols j ∧ (1 ≤ prob ∨ u r < prob)) →
      kept c (gpuReset (populate c) start cols prob u z o1 o2 o3 n m) i j = kept c m i j) := by
  classical
  intro r
  have hlt := at_lt _ _ _ _ hi hj
  have hx : (populate c).x = c.xSize := rfl
  have hd : (populate c).d = c.dSize := rfl
  have hpar : (populate c).par = c.par := rfl
  have key : ∀ w : ℕ → K, ∀ lhs : K, lhs =
      (if InColumns c.xSize start cols j ∧ (1 ≤ prob ∨ u r < prob) then
        bounded (cellAt c i j) ((cellAt c i j).resetB + max c.par.resetStd 0 * z r) else w (j * c.dSize + i)) →
      (InColumns c.xSize start cols j ∧ (1 ≤ prob ∨ u r < prob) → lhs =
        bounded (cellAt c i j) ((cellAt c i j).resetB + max c.par.resetStd 0 * z r)) ∧
      (¬ (InColumns c.xSize start cols j ∧ (1 ≤ prob ∨ u r < prob)) → lhs = w (j * c.dSize + i)) := by
    intro w lhs h
    exact ⟨fun hh => by rw [h, if_pos hh], fun hh => by rw [h, if_neg hh]⟩
  rw [← kept_eq c m i j]
  apply key
  unfold gpuReset
  rw [kept_onMem, hx, hd, hpar]
  dsimp only
  generalize (if persistent c.kd c.par then m.per else m.vis) = w
  have hin : ∀ N : ℕ, cols = N ∨ (cols < 0 ∧ N = c.xSize) → N < c.xSize →
      (InColumns c.xSize start cols j ↔ (j + c.xSize - start) % c.xSize < N) := by
    intro N hN hlt'
    rcases hN with rfl | ⟨_, rfl⟩
    · unfold InColumns
      constructor
      · rintro (h | ⟨q, hq, rfl⟩)
        · omega
        · have hq' : q < N := by exact_mod_cast hq
          have hq2 : q < c.xSize := by omega
          rcases lt_or_ge (start + q) c.xSize with h | h
          · rw [Nat.mod_eq_of_lt h]
            have : start + q + c.xSize - start = q + c.xSize := by omega
            rw [this, Nat.add_mod_right, Nat.mod_eq_of_lt hq2]; exact hq'
          · have e : (start + q) % c.xSize = start + q - c.xSize := by
              rw [Nat.mod_eq_sub_mod h, Nat.mod_eq_of_lt (by omega)]
            rw [e]
            have : start + q - c.xSize + c.xSize - start = q := by omega
            rw [this, Nat.mod_eq_of_lt hq2]; exact hq'
      · intro h
        right
        refine ⟨_, by exact_mod_cast h, ?_⟩
        rw [Nat.add_mod_mod]
        have : start + (j + c.xSize - start) = j + c.xSize := by omega
        rw [this, Nat.add_mod_right, Nat.mod_eq_of_lt hj]
    · omega
  have hN : ∃ N : ℕ, (if 0 ≤ cols then cols.toNat else c.xSize) = N ∧ (cols = N ∨ (cols < 0 ∧ N = c.xSize)) := by
    refine ⟨_, rfl, ?_⟩
    by_cases h : 0 ≤ cols
    · rw [if_pos h]; left; omega
    · rw [if_neg h]; right; exact ⟨by omega, rfl⟩
  obtain ⟨N, hN0, hN⟩ := hN
  rw [hN0]
  have hdpos : 0 < c.dSize := by omega
  by_cases hall : c.xSize * c.dSize ≤ N * c.dSize
  · have hNx : c.xSize ≤ N := Nat.le_of_mul_le_mul_right hall hdpos
    rw [if_pos hall, launch_at c prob u z threads _ hT _ (h1 _) 0 0 w hp i j hi hj]
    have hr : r = j * c.dSize + i := by
      show drawAt _ _ _ _ _ _ = _
      unfold drawAt
      rw [if_pos]
      rcases hN with h | h
      · right; omega
      · left; exact h.1
    have hic : InColumns c.xSize start cols j := by
      rcases hN with h | h
      · right
        refine ⟨(j + c.xSize - start) % c.xSize, ?_, ?_⟩
        · have := Nat.mod_lt (j + c.xSize - start) (show 0 < c.xSize by omega)
          omega
        · rw [Nat.add_mod_mod]
          have : start + (j + c.xSize - start) = j + c.xSize := by omega
          rw [this, Nat.add_mod_right, Nat.mod_eq_of_lt hj]
      · left; exact h.1
    rw [hr]
    simp only [Nat.sub_zero, Nat.zero_add, Nat.zero_le, true_and, hlt, hic]
  · have hNx : N < c.xSize := by
      by_contra h
      exact hall (Nat.mul_le_mul_right _ (not_lt.1 h))
    have hcN : cols = N := by
      rcases hN with h | h
      · exact h
      · omega
    have hic := hin N hN hNx
    have hr : r = (j + c.xSize - start) % c.xSize * c.dSize + i := by
      show drawAt _ _ _ _ _ _ = _
      unfold drawAt
      rw [if_neg (by omega)]
    rw [if_neg hall]
    have hmul : ∀ a b : ℕ, (a * c.dSize ≤ b * c.dSize + i ↔ a ≤ b) ∧ (b * c.dSize + i < a * c.dSize ↔ b < a) := by
      intro a b
      have k1 : a ≤ b → a * c.dSize ≤ b * c.dSize := Nat.mul_le_mul_right _
      have k2 : b < a → (b + 1) * c.dSize ≤ a * c.dSize := fun h => Nat.mul_le_mul_right _ h
      rw [Nat.add_mul] at k2
      constructor
      · constructor
        · intro h; by_contra h'; have := k2 (not_le.1 h'); omega
        · intro h; have := k1 h; omega
      · constructor
        · intro h; by_contra h'; have := k1 (not_lt.1 h'); omega
        · intro h; have := k2 h; omega
    by_cases hone : start * c.dSize + N * c.dSize ≤ c.xSize * c.dSize
    · rw [if_pos hone, launch_at c prob u z threads _ hT _ (h1 _) _ 0 w hp i j hi hj]
      have hone' : start + N ≤ c.xSize := by
        rw [← Nat.add_mul] at hone
        exact Nat.le_of_mul_le_mul_right hone hdpos
      rw [← Nat.add_mul]
      simp only [(hmul start j).1, (hmul (start + N) j).2, hic]
      by_cases hsj : start ≤ j
      · have e : j + c.xSize - start = (j - start) + c.xSize := by omega
        have e' : (j + c.xSize - start) % c.xSize = j - start := by
          rw [e, Nat.add_mod_right, Nat.mod_eq_of_lt (by omega)]
        have e2 : 0 + (j * c.dSize + i - start * c.dSize) = r := by
          rw [hr, e', Nat.sub_mul]
          have := Nat.mul_le_mul_right c.dSize hsj
          omega
        rw [e2, e']
        have : (start ≤ j ∧ j < start + N) ↔ j - start < N := by omega
        simp only [this]
      · have e' : (j + c.xSize - start) % c.xSize = j + c.xSize - start := Nat.mod_eq_of_lt (by omega)
        rw [if_neg (by omega), if_neg (by rw [e']; omega)]
    · rw [if_neg hone, launch_at c prob u z threads _ hT _ (h2 _) _ _ _ hp i j hi hj,
        launch_at c prob u z threads _ hT _ (h1 _) _ 0 w hp i j hi hj]
      have hone' : c.xSize < start + N := by
        by_contra h
        apply hone
        rw [← Nat.add_mul]
        exact Nat.mul_le_mul_right _ (not_lt.1 h)
      rw [← Nat.sub_mul, ← Nat.sub_mul, ← Nat.add_mul, Nat.zero_add ((N - (c.xSize - start)) * c.dSize)]
      simp only [(hmul start j).1, (hmul _ j).2, hic]
      by_cases hsj : start ≤ j
      · have e : j + c.xSize - start = (j - start) + c.xSize := by omega
        have e' : (j + c.xSize - start) % c.xSize = j - start := by
          rw [e, Nat.add_mod_right, Nat.mod_eq_of_lt (by omega)]
        have e2 : 0 + (j * c.dSize + i - start * c.dSize) = r := by
          rw [hr, e', Nat.sub_mul]
          have := Nat.mul_le_mul_right c.dSize hsj
          omega
        rw [if_neg (by omega), e2, e']
        have k1 : (start ≤ j ∧ j < start + (c.xSize - start)) ↔ True := by
          constructor
          · intro _; trivial
          · intro _; omega
        have k2 : j - start < N ↔ True := by
          constructor
          · intro _; trivial
          · intro _; omega
        simp only [k1, k2, true_and]
      · have e' : (j + c.xSize - start) % c.xSize = j + c.xSize - start := Nat.mod_eq_of_lt (by omega)
        have e2 : (c.xSize - start) * c.dSize + (j * c.dSize + i - 0) = r := by
          rw [hr, e', show j + c.xSize - start = (c.xSize - start) + j by omega, Nat.add_mul]
          omega
        rw [e2, e']
        have k1 : (0 ≤ j * c.dSize + i ∧ j < N - (c.xSize - start)) ↔ j + c.xSize - start < N := by omega
        have k2 : ¬ (start ≤ j ∧ j < start + (c.xSize - start)) := by omega
        simp only [k1, k2, false_and, if_false]

/-- Different connections have different random numbers. -/
theorem drawAt_inj (x d start : ℕ) (hs : start < x) (cols : ℤ) (i j i' j' : ℕ) (hi : i < d) (hj : j < x) (hi' : i' < d)
    (hj' : j' < x) (h : drawAt x d start cols i j = drawAt x d start cols i' j') : i = i' ∧ j = j' := by
  unfold drawAt at h
  have hm := congrArg (· % d) h
  have hv := congrArg (· / d) h
  have hd : 0 < d := by omega
  simp only [Nat.mul_comm _ d, Nat.mul_add_mod, Nat.mod_eq_of_lt hi, Nat.mod_eq_of_lt hi'] at hm
  simp only [Nat.mul_comm _ d, Nat.mul_add_div hd, Nat.div_eq_of_lt hi, Nat.div_eq_of_lt hi', Nat.add_zero] at hv
  refine ⟨hm, ?_⟩
  split_ifs at hv with hc
  · exact hv
  · have r1 : ∀ a, a < x → (start + (a + x - start) % x) % x = a := by
      intro a ha
      rw [Nat.add_mod_mod]
      have : start + (a + x - start) = a + x := by omega
      rw [this, Nat.add_mod_right, Nat.mod_eq_of_lt ha]
    rw [← r1 j hj, ← r1 j' hj', hv]

end Aihw.GpuDecay
