import Verif.Pulsed.TransferProps2

/-!
# C34: the transfer schedule in terms of the user's parameters
-/
namespace Aihw.Pulsed

variable {K : Type} [Field K] [LinearOrder K] [IsStrictOrderedRing K] [FloorRing K]

/-- What the user asked for: device `j` transfers every `e` updates.  In units of mini-batches, `e` is
`transfer_every * m_batch` rounded up; otherwise `transfer_every` rounded to the nearest integer, ties
up. -/
def Period (p : TPar K) (j m e : Nat) : Prop :=
  if p.unitsInMbatch then p.every j * (m : K) ≤ e ∧ (e : K) < p.every j * (m : K) + 1
  else (e : K) - 1 / 2 ≤ p.every j ∧ p.every j < (e : K) + 1 / 2

/-- The learning rate with which device `j` is transferred is not zero: `transfer_lr` is not, nor, with
`scale_transfer_lr`, the current learning rate of the tile. -/
def TransfersAt (p : TPar K) (j : Nat) (lr : K) : Prop :=
  p.lrVec j ≠ 0 ∧ (p.scaleLr = true → lr ≠ 0)

theorem getEvery_neg (p : TPar K) (j m : Nat) (h : p.every j ≤ 0) : p.getEvery j m = 0 := by
  unfold TPar.getEvery
  split_ifs
  · have : ⌈p.every j * (m : K)⌉ ≤ 0 := by
      rw [Int.ceil_le]
      push_cast
      exact mul_nonpos_of_nonpos_of_nonneg h (Nat.cast_nonneg m)
    omega
  · have : roundAway (p.every j) ≤ 0 := by
      unfold roundAway
      split_ifs with h0
      · have : p.every j = 0 := le_antisymm h h0
        rw [this, zero_add]
        have : ⌊(1 / 2 : K)⌋ = 0 := by
          rw [Int.floor_eq_iff]; norm_num
        omega
      · have : 0 ≤ ⌊-p.every j + 1 / 2⌋ := Int.floor_nonneg.2 (by linarith)
        omega
    omega

/-- **C34 (period).**  The number of updates between transfers is the one asked for; zero or a negative
`transfer_every` switches transfers off. -/
theorem C34_period (p : TPar K) (j m : Nat) :
    (∀ e, Period p j m e → p.getEvery j m = e) ∧
    (p.every j ≤ 0 → p.getEvery j m = 0) := by
  refine ⟨?_, getEvery_neg p j m⟩
  intro e h
  unfold Period at h
  by_cases h0 : 0 ≤ p.every j
  · unfold TPar.getEvery
    by_cases hu : p.unitsInMbatch = true
    · rw [if_pos hu] at h ⊢
      have hc : ⌈p.every j * (m : K)⌉ = (e : ℤ) := by
        rw [Int.ceil_eq_iff]
        push_cast
        exact ⟨by linarith [h.2], h.1⟩
      rw [hc]
      omega
    · rw [if_neg hu] at h ⊢
      have hr : roundAway (p.every j) = (e : ℤ) := by
        unfold roundAway
        rw [if_pos h0, Int.floor_eq_iff]
        push_cast
        exact ⟨by linarith [h.1], by linarith [h.2]⟩
      rw [hr]
      omega
  · push Not at h0
    rw [getEvery_neg p j m h0.le]
    by_contra hne
    have h1 : (1 : K) ≤ e := by exact_mod_cast Nat.one_le_iff_ne_zero.2 (Ne.symm hne)
    split_ifs at h
    · have : p.every j * (m : K) ≤ 0 := mul_nonpos_of_nonpos_of_nonneg h0.le (Nat.cast_nonneg m)
      linarith [h.2]
    · linarith [h.1]

theorem transferLR_ne (p : TPar K) (j : Nat) (lr : K) :
    p.transferLR j lr ≠ 0 ↔ TransfersAt p j lr := by
  unfold TPar.transferLR TransfersAt
  split_ifs with h <;> simp [h]

/-- **C34 (schedule in the user's parameters).**  As `C34_schedule`, with the period and the learning
rate given by the parameters: with `transfer_every` (in updates or mini-batches) amounting to `e > 0`
updates for all batch sizes that occur, and nonzero `transfer_lr` (and, if it is scaled, learning
rates), after the updates `us` exactly `n_reads * ⌊|us| / e⌋` columns of device `j` have been read,
cyclically from column 0. -/
theorem C34_schedule_parameters (F : Fns K) (p : TPar K) (hin : 0 < p.inSize) (hn : p.nReads ≤ p.inSize)
    (s : TS K) (h0 : s.idx = 0) (hsl : ∀ k, s.slice k = 0) (hlog : s.log = [])
    (us : List (Upd K)) (j e : Nat) (hj : j + 1 < p.n) (he : 0 < e)
    (hev : ∀ u ∈ us, Period p j u.mBatch e) (hlr : ∀ u ∈ us, TransfersAt p j u.lr) :
    reads (p.run F s us) j = (List.range (p.nReads * (us.length / e))).map (· % p.inSize) :=
  (C34_schedule F p hin hn s h0 hsl hlog us j e hj he
    (fun u hu => (C34_period p j u.mBatch).1 e (hev u hu))
    (fun u hu => (transferLR_ne p j u.lr).2 (hlr u hu))).1

/-- **C34 (no transfer, in the user's parameters).**  Nothing is ever read from a device with
`transfer_every ≤ 0`, or with `transfer_lr = 0`, or, if the transfer learning rate is scaled, during
updates with learning rate zero. -/
theorem C34_no_transfer_parameters (F : Fns K) (p : TPar K) (hin : 0 < p.inSize) (s : TS K)
    (hsl : ∀ k, s.slice k < p.inSize) (us : List (Upd K)) (j : Nat)
    (h : p.every j ≤ 0 ∨ p.lrVec j = 0 ∨ (p.scaleLr = true ∧ ∀ u ∈ us, u.lr = 0)) :
    reads (p.run F s us) j = reads s j := by
  refine C34_no_transfer F p hin s hsl us j ?_
  rcases h with h | h | ⟨h1, h2⟩
  · exact Or.inl fun u _ => getEvery_neg p j _ h
  · refine Or.inr (Or.inl fun u _ => ?_)
    by_contra hc
    exact ((transferLR_ne p j u.lr).1 hc).1 h
  · refine Or.inr (Or.inl fun u hu => ?_)
    by_contra hc
    exact ((transferLR_ne p j u.lr).1 hc).2 h1 (h2 u hu)

/-- Non-vacuity: in mini-batch units `0.3 * 10 = 3` updates; without, `2.5` is rounded to `3`. -/
example : Period (K := ℚ) ⟨2, 2, 2, true, 1, true, fun _ => 3 / 10, fun _ => 1, true, 0, fun _ => 1⟩ 0 10 3 ∧
    Period (K := ℚ) ⟨2, 2, 2, true, 1, false, fun _ => 5 / 2, fun _ => 1, true, 0, fun _ => 1⟩ 0 10 3 ∧
    TransfersAt (K := ℚ) ⟨2, 2, 2, true, 1, true, fun _ => 3 / 10, fun _ => 1, true, 0, fun _ => 1⟩ 0 (1 / 2) := by
  refine ⟨?_, ?_, ?_⟩
  · simp only [Period, if_true]; norm_num
  · simp only [Period, Bool.false_eq_true, if_false]; norm_num
  · simp [TransfersAt]

end Aihw.Pulsed
