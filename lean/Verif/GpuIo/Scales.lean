import Verif.GpuIo.Agree

/-!
# The scales of bound management
-/
open scoped BigOperators

namespace Aihw.GpuIo

open Aihw.GpuNm (place Man Req)

variable {K : Type} [Field K] [LinearOrder K] [IsStrictOrderedRing K] [FloorRing K]
variable {c : Ctx K}

/-- A batch with noise management: a sample with a positive value which exceeded the bound gets its value
times two to the number of rounds; a sample which did not exceed it keeps its scale. -/
theorem C99_scale_batch (v : K) (hv : 0 < v) (exceeds : ℕ → K → Bool) (k : ℕ) :
    (exceeds k (Spec.scaleAt false (some v) exceeds k) = true →
      Spec.scaleAt false (some v) exceeds (k + 1) = v * 2 ^ (k + 1)) ∧
    (exceeds k (Spec.scaleAt false (some v) exceeds k) = false →
      Spec.scaleAt false (some v) exceeds (k + 1) = Spec.scaleAt false (some v) exceeds k) ∧
    ∃ r : ℕ, r ≤ k ∧ Spec.scaleAt false (some v) exceeds k = v * 2 ^ r := by
  have step1 : ∀ k : ℕ, exceeds k (Spec.scaleAt false (some v) exceeds k) = true →
      Spec.scaleAt false (some v) exceeds (k + 1) = v * 2 ^ (k + 1) := by
    intro k h
    rw [Spec.scaleAt, if_neg Bool.false_ne_true, if_pos h]
    dsimp only [Option.elim]
    rw [if_pos hv]
  have step2 : ∀ k : ℕ, exceeds k (Spec.scaleAt false (some v) exceeds k) = false →
      Spec.scaleAt false (some v) exceeds (k + 1) = Spec.scaleAt false (some v) exceeds k := by
    intro k h
    rw [Spec.scaleAt, if_neg Bool.false_ne_true, if_neg (fun hh => by rw [h] at hh; cases hh)]
  refine ⟨step1 k, step2 k, ?_⟩
  induction k with
  | zero => exact ⟨0, le_rfl, by rw [Spec.scaleAt, pow_zero, mul_one]; rfl⟩
  | succ k ih =>
    cases h : exceeds k (Spec.scaleAt false (some v) exceeds k) with
    | true => exact ⟨k + 1, le_rfl, step1 k h⟩
    | false =>
      obtain ⟨r, hr, e⟩ := ih
      exact ⟨r, by omega, by rw [step2 k h, e]⟩

/-- A single sample: the value of noise management (or one) times two to the number of rounds. -/
theorem C99_scale_single (v : Option K) (exceeds : ℕ → K → Bool) (k : ℕ) :
    Spec.scaleAt true v exceeds k = v.getD 1 * 2 ^ k := by
  cases k with
  | zero => rw [Spec.scaleAt, pow_zero, mul_one]
  | succ k => rw [Spec.scaleAt, if_pos rfl]

/-- A batch without noise management: after `k` rounds in which a sample exceeded the bound, its scale is
not two to the power of `k`, but the product of all the reductions (1, 2, 8, 64, 1024, …). -/
theorem C99_scale_without_management (exceeds : ℕ → K → Bool) (k : ℕ)
    (h : ∀ k' : ℕ, k' < k → exceeds k' (Spec.scaleAt false none exceeds k') = true) :
    Spec.scaleAt false none exceeds k = 2 ^ (k * (k + 1) / 2) := by
  induction k with
  | zero => rw [Spec.scaleAt, Nat.zero_mul, Nat.zero_div, pow_zero]; rfl
  | succ k ih =>
    rw [Spec.scaleAt, if_neg Bool.false_ne_true, if_pos (h k (by omega))]
    dsimp only [Option.elim]
    rw [ih fun k' hk => h k' (by omega), ← pow_add]
    congr 1
    have e : (k + 1) * (k + 1 + 1) = k * (k + 1) + 2 * (k + 1) := by ring
    rw [e, Nat.add_mul_div_left _ _ (by norm_num)]

/-- The worst case mode together with `AbsMaxNPSum` noise management: the second round sets the reduction to
one again, and a single sample goes through the pass a second time with the scale of the first round. -/
theorem C99_worst_repeats (c : Ctx K) (hbm : c.io.bm = .worstCase) (hnm : c.io.nm = .absMaxNPSum)
    (hm : c.m = 1) (nth : ℕ) (lowest : K) (r1 r2 : Req K) (s s1 s2 s2' : St K) (h0 : s.round = 0)
    (hr : s.red = 1 / 2) (h1 : c.nextRound nth lowest r1 s = .ok s1)
    (hs : s2.round = s1.round ∧ s2.man = s1.man) (h2 : c.nextRound nth lowest r2 s2 = .ok s2') :
    c.roundScales s2' = c.roundScales s1 ∧ s2'.red = 1 := by
  unfold Ctx.nextRound at h1 h2
  dsimp only at h1 h2
  rw [h0, if_neg (fun hh => by have := hh.1; omega)] at h1
  obtain rfl := Except.ok.inj h1
  have hs1 : s2.round = 1 := hs.1
  rw [hs1, if_pos ⟨rfl, hbm⟩, if_neg (not_not.mpr hnm)] at h2
  obtain rfl := Except.ok.inj h2
  refine ⟨?_, rfl⟩
  unfold Ctx.roundScales
  rw [if_pos hm, if_pos hm]
  dsimp only
  rw [hs.2, hr, div_mul_cancel₀ _ (two_ne_zero : (2 : K) ≠ 0)]

end Aihw.GpuIo
