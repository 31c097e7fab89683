import Verif.IrDrop.Props
import Mathlib.Tactic.LinearCombination

/-!
# Lemmas: decomposition of the inputs
-/
namespace Aihw.IrDrop
open Aihw.Inference

variable {K : Type} [Field K] [LinearOrder K] [IsStrictOrderedRing K] [FloorRing K]

omit [FloorRing K] in
theorem sgn_mul_abs (a : K) : sgn a * |a| = a := by
  unfold sgn
  rcases lt_trichotomy a 0 with h | h | h
  · rw [if_neg (by linarith), if_pos h, abs_of_neg h]; ring
  · rw [h]; simp
  · rw [if_pos h, abs_of_pos h]; ring

omit [FloorRing K] in
theorem abs_sgn_le (a : K) : |sgn a| ≤ 1 := by
  unfold sgn; split_ifs <;> simp

omit [FloorRing K] in
theorem sgn_mul_pos (a c : K) (hc : 0 < c) : sgn (a * c) = sgn a := by
  unfold sgn
  rcases lt_trichotomy a 0 with h | h | h
  · have h1 := mul_neg_of_neg_of_pos h hc
    rw [if_neg (by linarith), if_pos h1, if_neg (by linarith), if_pos h]
  · rw [h]; simp
  · rw [if_pos (mul_pos h hc), if_pos h]

theorem fmod_eq (a b : K) : fmod a b = sgn a * (|a| - b * (⌊|a| / b⌋ : K)) := by
  unfold fmod
  nth_rw 1 [← sgn_mul_abs a]
  ring

theorem rem_bounds (y b : K) (hb : 0 < b) : 0 ≤ y - b * (⌊y / b⌋ : K) ∧ y - b * (⌊y / b⌋ : K) < b := by
  have h1 := Int.floor_le (y / b)
  have h2 := Int.lt_floor_add_one (y / b)
  rw [le_div_iff₀ hb] at h1
  rw [div_lt_iff₀ hb] at h2
  constructor <;> nlinarith

theorem abs_fmod_lt (a b : K) (hb : 0 < b) : |fmod a b| < b := by
  rw [fmod_eq, abs_mul]
  obtain ⟨h1, h2⟩ := rem_bounds |a| b hb
  rw [abs_of_nonneg h1]
  calc |sgn a| * _ ≤ 1 * (|a| - b * (⌊|a| / b⌋ : K)) := mul_le_mul_of_nonneg_right (abs_sgn_le a) h1
    _ < b := by linarith

omit [IsStrictOrderedRing K] [FloorRing K] in
/-- The sign as an integer. -/
theorem sgn_int (a : K) : ∃ e : Int, sgn a = (e : K) := by
  unfold sgn
  split_ifs
  · exact ⟨1, by simp⟩
  · exact ⟨-1, by simp⟩
  · exact ⟨0, by simp⟩

/-- Integer part towards zero after division by `b`. -/
theorem quot_int (a b : K) : ∃ z : Int, sgn a * (⌊|a| / b⌋ : K) = (z : K) := by
  obtain ⟨e, he⟩ := sgn_int a
  exact ⟨e * ⌊|a| / b⌋, by rw [he]; push_cast; ring⟩

theorem fmod_int (m b : Int) : ∃ z : Int, fmod (m : K) (b : K) = (z : K) := by
  obtain ⟨z, hz⟩ := quot_int (m : K) (b : K)
  refine ⟨m - b * z, ?_⟩
  unfold fmod
  rw [hz]; push_cast; ring

/-- Recombined bits. -/
def bitsSum (u : K) (n : Nat) : K := ∑ b ∈ Finset.range n, 2 ^ b * (bits u n).getD b 0

theorem bitsSum_succ (u : K) (n : Nat) : bitsSum u (n + 1) = fmod u 2 + 2 * bitsSum (sgn u * (⌊|u| / 2⌋ : K)) n := by
  unfold bitsSum
  rw [Finset.sum_range_succ', bits]
  simp only [List.getD_cons_succ, List.getD_cons_zero, pow_zero, one_mul]
  rw [add_comm, Finset.mul_sum]
  congr 1
  exact Finset.sum_congr rfl fun b _ => by rw [pow_succ]; ring

theorem half_abs (u : K) : |sgn u * (⌊|u| / 2⌋ : K)| ≤ |u| / 2 := by
  have h0 : (0 : K) ≤ |u| / 2 := by positivity
  have h1 : (0 : K) ≤ (⌊|u| / 2⌋ : K) := by exact_mod_cast Int.floor_nonneg.2 h0
  rw [abs_mul, abs_of_nonneg h1]
  calc |sgn u| * (⌊|u| / 2⌋ : K) ≤ 1 * (⌊|u| / 2⌋ : K) := mul_le_mul_of_nonneg_right (abs_sgn_le u) h1
    _ ≤ |u| / 2 := by rw [one_mul]; exact Int.floor_le _

theorem bitsSum_int (n : Nat) : ∀ z : Int, |(z : K)| < 2 ^ n → bitsSum (z : K) n = z := by
  induction n with
  | zero =>
    intro z hz
    have : |z| < 1 := by
      have h : ((|z| : Int) : K) < 1 := by rw [Int.cast_abs]; simpa using hz
      exact_mod_cast h
    have hz0 : z = 0 := by
      rcases abs_lt.1 this with ⟨h1, h2⟩; omega
    subst hz0
    simp [bitsSum]
  | succ n ih =>
    intro z hz
    obtain ⟨t, ht⟩ := quot_int (z : K) 2
    have hb := half_abs (z : K)
    rw [bitsSum_succ, ht, ih t (by
      rw [← ht]
      refine hb.trans_lt ?_
      rw [pow_succ] at hz
      linarith), ← ht]
    unfold fmod
    ring

theorem bitsSum_eq (n : Nat) (hn : 0 < n) (u : K) (hu : |u| < 2 ^ n) : bitsSum u n = u := by
  obtain ⟨n, rfl⟩ : ∃ k, n = k + 1 := ⟨n - 1, by omega⟩
  obtain ⟨t, ht⟩ := quot_int u 2
  rw [bitsSum_succ, ht, bitsSum_int n t (by
    rw [← ht]
    refine (half_abs u).trans_lt ?_
    rw [pow_succ] at hu
    linarith), ← ht]
  unfold fmod
  ring

theorem bitsSum_int_le (n : Nat) : ∀ z : Int, |bitsSum (z : K) n| ≤ 2 ^ n - 1 := by
  induction n with
  | zero => intro z; simp [bitsSum]
  | succ n ih =>
    intro z
    obtain ⟨t, ht⟩ := quot_int (z : K) 2
    obtain ⟨f, hf⟩ := fmod_int (K := K) z 2
    have hf' : fmod (z : K) 2 = f := by simpa using hf
    have hf2 : |(f : K)| < 2 := by
      rw [← hf']; exact abs_fmod_lt _ _ (by norm_num)
    have hf1 : |(f : K)| ≤ 1 := by
      have h : ((|f| : Int) : K) < 2 := by rw [Int.cast_abs]; exact hf2
      have : |f| < 2 := by exact_mod_cast h
      have h3 : |f| ≤ 1 := by omega
      have h4 : ((|f| : Int) : K) ≤ 1 := by exact_mod_cast h3
      rwa [Int.cast_abs] at h4
    rw [bitsSum_succ, ht, hf']
    calc |(f : K) + 2 * bitsSum (t : K) n| ≤ |(f : K)| + |2 * bitsSum (t : K) n| := abs_add_le _ _
      _ = |(f : K)| + 2 * |bitsSum (t : K) n| := by rw [abs_mul, abs_of_pos (by norm_num : (0 : K) < 2)]
      _ ≤ 1 + 2 * (2 ^ n - 1) := by linarith [ih t]
      _ = 2 ^ (n + 1) - 1 := by rw [pow_succ]; ring

theorem bitsSum_lt (n : Nat) (u : K) : |bitsSum u n| < 2 ^ n := by
  cases n with
  | zero => simp [bitsSum]
  | succ n =>
    obtain ⟨t, ht⟩ := quot_int u 2
    rw [bitsSum_succ, ht]
    calc |fmod u 2 + 2 * bitsSum (t : K) n| ≤ |fmod u 2| + |2 * bitsSum (t : K) n| := abs_add_le _ _
      _ = |fmod u 2| + 2 * |bitsSum (t : K) n| := by rw [abs_mul, abs_of_pos (by norm_num : (0 : K) < 2)]
      _ < 2 + 2 * (2 ^ n - 1) := by linarith [bitsSum_int_le (K := K) n t, abs_fmod_lt u 2 (by norm_num)]
      _ = 2 ^ (n + 1) := by rw [pow_succ]; ring

/-- Bits of an integer are `-1`, `0` or `1`. -/
theorem bits_int (n : Nat) : ∀ (z : Int), ∀ v ∈ bits (z : K) n, ∃ f : Int, v = f ∧ |f| ≤ 1 := by
  induction n with
  | zero => intro z v hv; simp [bits] at hv
  | succ n ih =>
    intro z v hv
    obtain ⟨t, ht⟩ := quot_int (z : K) 2
    rw [bits, ht] at hv
    rcases List.mem_cons.1 hv with rfl | hv
    · obtain ⟨f, hf⟩ := fmod_int (K := K) z 2
      have hf' : fmod (z : K) 2 = f := by simpa using hf
      refine ⟨f, hf', ?_⟩
      have hf2 : |(f : K)| < 2 := by
        rw [← hf']; exact abs_fmod_lt _ _ (by norm_num)
      have h : ((|f| : Int) : K) < 2 := by rw [Int.cast_abs]; exact hf2
      have : |f| < 2 := by exact_mod_cast h
      omega
    · exact ih t v hv

theorem bits_length (n : Nat) : ∀ u : K, (bits u n).length = n := by
  induction n with
  | zero => intro u; rfl
  | succ n ih => intro u; simp [bits, ih]

theorem split_eq (res : K) (hr : 0 < res) (s : Nat) (v : K) : 2 ^ s * msb res s v + lsb res s v = v := by
  unfold msb lsb fmod
  have : v / (2 * res) * (2 * res) = v := div_mul_cancel₀ _ (by positivity)
  linear_combination this

theorem ilog_pow (n : Nat) : ilog ((2 : K) ^ n) = n := by
  unfold ilog
  have : ((2 : K) ^ n) = ((2 ^ n : Nat) : K) := by push_cast; rfl
  rw [this, Nat.floor_natCast, Nat.log_pow (by norm_num)]

end Aihw.IrDrop
