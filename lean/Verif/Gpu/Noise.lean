import Verif.Gpu.Props

/-!
# C96: bounds, and the noise of the kernel with bound check
-/

namespace Aihw.Gpu

open Spec

theorem upFun_within {p : Dev} (hp : p.wmin ≤ p.wmax) (z : ℕ → ℚ) (n : ℕ) (b : Bool) (s : Cell) :
    Within p (upFun p z n b s).w := clip_within hp _

theorem functorBits_within {p : Dev} (hp : p.wmin ≤ p.wmax) (z : ℕ → ℚ) (n g : ℕ) (is : List ℕ) :
    ∀ s : Cell, Within p s.w → Within p (functorBits p z n g is s).w := by
  induction is with
  | nil => intro s h; exact h
  | cons i is ih =>
    intro s h
    rw [functorBits]
    apply ih
    split_ifs
    · exact upFun_within hp _ _ _ _
    · exact h

theorem functorLoop_within {p : Dev} (hp : p.wmin ≤ p.wmax) (z : ℕ → ℚ) (rs : List Read) :
    ∀ s : Cell, Within p s.w → Within p (functorLoop p z rs s).w := by
  induction rs with
  | nil => intro s h; exact h
  | cons r rs ih =>
    intro s h
    rw [functorLoop]
    apply ih
    unfold functorRead
    split_ifs
    · exact functorBits_within hp _ _ _ _ _ h
    · exact upFun_within hp _ _ _ _
    · exact h

theorem flush_within {p : Dev} (hp : p.wmin ≤ p.wmax) (z : ℕ → ℚ) {a : Acc}
    (h : Within p a.cell.w) : Within p (flush p z a).w := by
  unfold flush
  split_ifs
  · exact upFun_within hp _ _ _ _
  · exact h

theorem sumBits_within {p : Dev} (hp : p.wmin ≤ p.wmax) (z : ℕ → ℚ) (n g : ℕ) (is : List ℕ) :
    ∀ a : Acc, Within p a.cell.w → Within p (sumBits p z n g is a).cell.w := by
  induction is with
  | nil => intro a h; exact h
  | cons i is ih =>
    intro a h
    rw [sumBits]
    apply ih
    by_cases hi : n.testBit i = true
    · rw [if_pos hi]
      unfold sumBit
      generalize (if g.testBit i then 1 else 0 : ℕ) = v
      split_ifs
      · exact h
      · exact flush_within hp z h
    · rw [if_neg hi]; exact h

theorem sumPlain_within {p : Dev} (hp : p.wmin ≤ p.wmax) (z : ℕ → ℚ) (r : Read) {a : Acc}
    (h : Within p a.cell.w) : Within p (sumPlain p z r a).cell.w := by
  unfold sumPlain
  split_ifs
  · exact h
  · exact flush_within hp z h

theorem noisyCount_nonneg {p : Dev} (hs : ∀ n : ℕ, 0 ≤ p.sqrt n) (n : ℕ) : 0 ≤ noisyCount p n := by
  have hn : (0 : ℚ) ≤ n := Nat.cast_nonneg n
  unfold noisyCount
  split_ifs with h1 h2
  · have := mul_nonneg (hs n) (le_of_lt h1); linarith
  · exact hn
  · exact hn

theorem inner_within {p : Dev} (bound : Bool) (hp : p.wmin ≤ p.wmax)
    (hstep : bound = true → 0 ≤ p.down ∧ 0 ≤ p.up ∧ ∀ n : ℕ, 0 ≤ p.sqrt n) (z : ℕ → ℚ) (r : Read)
    {a : Acc} (h : Within p a.cell.w) :
    Within p (if bound then boundInner p z r a else sumInner p z r a).cell.w := by
  cases bound with
  | false =>
    simp only [Bool.false_eq_true, if_false]
    unfold sumInner
    split_ifs
    · exact sumBits_within hp _ _ _ _ _ h
    · exact sumPlain_within hp z r h
  | true =>
    simp only [if_true]
    obtain ⟨hd, hu, hs⟩ := hstep rfl
    have hf := flush_within hp z h
    unfold boundInner
    split_ifs
    · unfold boundMixed
      dsimp only
      have h1 := mul_nonneg (noisyCount_nonneg hs (posN r)) hd
      have h2 := mul_nonneg (noisyCount_nonneg hs (negN r)) hu
      split_ifs with hc
      · show p.wmin ≤ _ - _ ∧ _ - _ ≤ p.wmax
        exact ⟨by linarith [hc.1], by linarith [hc.2]⟩
      · exact sumBits_within hp _ _ _ _ _ hf
    · exact sumPlain_within hp z r h

theorem sumLoop_within {p : Dev} (bound : Bool) (hp : p.wmin ≤ p.wmax)
    (hstep : bound = true → 0 ≤ p.down ∧ 0 ≤ p.up ∧ ∀ n : ℕ, 0 ≤ p.sqrt n) (z : ℕ → ℚ)
    (rs : List Read) : ∀ a : Acc, Within p a.cell.w → Within p (sumLoop bound p z rs a).w := by
  induction rs with
  | nil => intro a h; exact flush_within hp z h
  | cons r rs ih =>
    intro a h
    rw [sumLoop]
    exact ih _ (inner_within bound hp hstep z r h)

/-- **C96.** Whatever is read, and whatever the noise, no kernel moves a weight out of its bounds. -/
theorem C96_bounds (k : Kernel) (p : Dev) (z : ℕ → ℚ) (rs : List Read) (w : ℚ)
    (hw : p.wmin ≤ w ∧ w ≤ p.wmax)
    (hstep : k = .boundCheck → 0 ≤ p.down ∧ 0 ≤ p.up ∧ ∀ n : ℕ, 0 ≤ p.sqrt n) :
    p.wmin ≤ kernelCell k p z rs w ∧ kernelCell k p z rs w ≤ p.wmax := by
  have hp := le_trans hw.1 hw.2
  cases k with
  | functor => exact functorLoop_within hp z rs ⟨w, 0⟩ hw
  | sum => exact sumLoop_within false hp (fun h => by cases h) z rs ⟨⟨w, 0⟩, 0, 0⟩ hw
  | boundCheck => exact sumLoop_within true hp (fun _ => hstep rfl) z rs ⟨⟨w, 0⟩, 0, 0⟩ hw

/-- A pair of words read as a mixed one, away from the bounds, with the noise switched on. -/
theorem boundCheck_mixed (p : Dev) (hs : 0 < p.sigma) (z : ℕ → ℚ) (r : Read) (hm : r.mixed = true)
    (hpos : 0 < posN r) (hneg : 0 < negN r) (w : ℚ)
    (hlow : p.wmin ≤ w - (posN r + p.sqrt (posN r) * p.sigma) * p.down)
    (hhigh : w + (negN r + p.sqrt (negN r) * p.sigma) * p.up ≤ p.wmax) :
    kernelCell .boundCheck p z [r] w
      = w - (posN r + p.sqrt (posN r) * p.sigma) * p.down
          + (negN r + p.sqrt (negN r) * p.sigma) * p.up := by
  have e1 : noisyCount p (posN r) = posN r + p.sqrt (posN r) * p.sigma := by
    unfold noisyCount; rw [if_pos hs, if_pos hpos]
  have e2 : noisyCount p (negN r) = negN r + p.sqrt (negN r) * p.sigma := by
    unfold noisyCount; rw [if_pos hs, if_pos hneg]
  show (sumLoop true p z [r] ⟨⟨w, 0⟩, 0, 0⟩).w = _
  rw [sumLoop, sumLoop]
  simp only [if_true]
  have hf : flush p z ⟨⟨w, 0⟩, 0, 0⟩ = ⟨w, 0⟩ := by unfold flush; simp
  unfold boundInner
  rw [hm]
  simp only [if_true]
  unfold boundMixed
  dsimp only
  rw [hf, e1, e2]
  dsimp only
  rw [if_pos ⟨hlow, hhigh⟩]
  unfold flush
  simp only [lt_irrefl, if_false]
  ring

theorem mixedBits (x d : W64) (hm : (read64 .both x d).mixed = true) :
    posN (read64 .both x d)
        = ((delivered (read64 .both x d)).filter fun b => !b).length
      ∧ negN (read64 .both x d) = ((delivered (read64 .both x d)).filter fun b => b).length := by
  generalize read64 .both x d = r at hm ⊢
  unfold delivered
  rw [hm]
  simp only [if_true]
  rw [← List.countP_eq_length_filter, ← List.countP_eq_length_filter, countP_bits, countP_bits]
  exact ⟨rfl, rfl⟩

/-- **C96, the exception.** The kernel with bound check draws random numbers for the cycle-to-cycle
noise of a word with pulses of both signs but does not use them: away from the bounds the result is
the same for all random numbers, and the noise only makes both kinds of pulses systematically larger,
by the square root of their number times the noise strength. -/
theorem C96_noise_unused (p : Dev) (hs : 0 < p.sigma) (x d : W64)
    (hm : (read64 .both x d).mixed = true) (ups downs : ℕ)
    (hups : ups = ((delivered (read64 .both x d)).filter fun b => b).length)
    (hdowns : downs = ((delivered (read64 .both x d)).filter fun b => !b).length)
    (h1 : 0 < ups) (h2 : 0 < downs) (w : ℚ)
    (hlow : p.wmin ≤ w - (downs + p.sqrt downs * p.sigma) * p.down)
    (hhigh : w + (ups + p.sqrt ups * p.sigma) * p.up ≤ p.wmax) (z : ℕ → ℚ) :
    kernelCell .boundCheck p z [read64 .both x d] w
      = w - (downs + p.sqrt downs * p.sigma) * p.down + (ups + p.sqrt ups * p.sigma) * p.up := by
  obtain ⟨hp, hn⟩ := mixedBits x d hm
  rw [← hdowns] at hp
  rw [← hups] at hn
  have := boundCheck_mixed p hs z _ hm (by rw [hp]; exact h2) (by rw [hn]; exact h1) w
    (by rw [hp]; exact hlow) (by rw [hn]; exact hhigh)
  rw [this, hp, hn]

/-! ## The noise of the functor kernel -/

/-- Steps with cycle-to-cycle noise: `n` pulses of one sign are `n` steps at once, and the noise of their
sum is that of one step times the square root of `n`. -/
def noisySteps (p : Dev) (z : ℕ → ℚ) : ℕ → ℚ → List (ℕ × Bool) → ℚ
  | _, w, [] => w
  | i, w, (n, negative) :: es =>
    let dw := if negative then p.up else -p.down
    let noise := if n = 1 then z i * p.sigma else p.rsqrt n * (z i * p.sigma)
    noisySteps p z (i + 1) (max p.wmin (min p.wmax (w + n * dw * (1 + noise)))) es

theorem clip_minmax {p : Dev} (w : ℚ) :
    clip p w = max p.wmin (min p.wmax w) := by
  unfold clip
  dsimp only
  by_cases h1 : p.wmax < w
  · rw [if_pos h1, min_eq_left (le_of_lt h1)]
    split_ifs with h2
    · rw [max_eq_left (le_of_lt h2)]
    · rw [max_eq_right (not_lt.mp h2)]
  · rw [if_neg h1, min_eq_right (not_lt.mp h1)]
    split_ifs with h2
    · rw [max_eq_left (le_of_lt h2)]
    · rw [max_eq_right (not_lt.mp h2)]

theorem functorLoop_noise (p : Dev) (hs : 0 < p.sigma) (z : ℕ → ℚ) (rs : List Read)
    (hp : ∀ r ∈ rs, r.mixed = false) :
    ∀ (w : ℚ) (i : ℕ), (functorLoop p z rs ⟨w, i⟩).w = noisySteps p z i w
      ((rs.filter fun r => decide (0 < r.n)).map fun r => (r.n, decide (0 < r.negative))) := by
  induction rs with
  | nil => intro w i; rfl
  | cons r rs ih =>
    intro w i
    have ih' := ih fun r' h => hp r' (List.mem_cons_of_mem _ h)
    rw [functorLoop]
    unfold functorRead
    rw [if_neg (by rw [hp r List.mem_cons_self]; exact Bool.false_ne_true)]
    by_cases hn : 0 < r.n
    · rw [if_pos hn, List.filter_cons_of_pos (by simpa using hn), List.map_cons, noisySteps]
      unfold upFun
      rw [if_pos hs, ih', clip_minmax]
      dsimp only
      have e : amount p (z i) r.n (decide (0 < r.negative)) =
          r.n * (if decide (0 < r.negative) = true then p.up else -p.down) *
            (1 + if r.n = 1 then z i * p.sigma else p.rsqrt r.n * (z i * p.sigma)) := by
        unfold amount
        dsimp only
        rw [if_pos hs, if_pos hs]
        by_cases h1 : r.n = 1
        · rw [if_pos h1, if_pos h1, h1, Nat.cast_one, one_mul]
        · rw [if_neg h1, if_neg h1]; ring
      rw [e]
    · rw [if_neg hn, List.filter_cons_of_neg (by simpa using hn)]
      exact ih' w i

/-- **C96, with noise.** Without mixed words, the functor kernel changes the weight once for each sample
with pulses: by their number times the step, times one plus the noise of one step divided by the square
root of their number; each sample takes the next random number. -/
theorem C96_noise (p : Dev) (hs : 0 < p.sigma) (z : ℕ → ℚ) (rs : List Read)
    (hp : ∀ r ∈ rs, r.mixed = false) (w : ℚ) :
    kernelCell .functor p z rs w = noisySteps p z 0 w
      ((rs.filter fun r => decide (0 < r.n)).map fun r => (r.n, decide (0 < r.negative))) :=
  functorLoop_noise p hs z rs hp w 0

end Aihw.Gpu
