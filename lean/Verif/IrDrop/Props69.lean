import Verif.IrDrop.Lemmas5

/-!
# C69: decomposition of the inputs in split and bit-wise mode
-/
namespace Aihw.IrDrop
open Aihw.Inference

variable {K : Type} [Field K] [LinearOrder K] [IsStrictOrderedRing K] [FloorRing K]

/-- **C69** (split accepted). Split mode accepts exactly the resolutions `1 / (2^N - 2)` with a shift below `N`; the conversion check never
fails, and the two phases are entrywise decompositions of the inputs: `x = lo + 2^s hi`. -/
theorem C69_split (res : K) (hr : 0 < res) (s : Nat) (x : List K) :
    ((∃ N, s < N ∧ 1 / res + 2 = 2 ^ N) → ∃ lo hi, splitInput res s x = .ok (lo, hi) ∧ lo.length = x.length ∧ hi.length = x.length ∧
      ∀ r, r < x.length → x.getD r 0 = lo.getD r 0 + 2 ^ s * hi.getD r 0) ∧
    (¬ (∃ N, s < N ∧ 1 / res + 2 = 2 ^ N) → splitInput res s x = .error .configError) := by
  constructor
  · rintro ⟨N, hs, hN⟩
    have hl : ilog (1 / res + 2) = N := by rw [hN, ilog_pow]
    refine ⟨x.map (lsb res s), x.map (msb res s), ?_, by simp, by simp, ?_⟩
    · unfold splitInput
      simp only [hl]
      rw [if_neg (by rw [hN]; simp), if_neg (by simp [hs]), if_neg]
      simp only [not_not, List.all_eq_true]
      intro v _
      unfold closeTo
      rw [split_eq res hr s v, sub_self, abs_zero, decide_eq_true_iff]
      positivity
    · intro r hr'
      rw [List.getD_eq_getElem _ _ hr', List.getD_eq_getElem _ _ (by simpa using hr'), List.getD_eq_getElem _ _ (by simpa using hr')]
      simp only [List.getElem_map]
      rw [add_comm, split_eq res hr s]
  · intro h
    unfold splitInput
    simp only
    by_cases h1 : 1 / res + 2 = 2 ^ ilog (1 / res + 2)
    · rw [if_neg (by simpa using h1), if_pos]
      intro hs
      exact h ⟨_, hs, h1⟩
    · rw [if_pos h1]

/-- **C69** (split digits). An input of `m` time units is split into whole numbers of units, the lower part below `2^s` units and the upper
one at most `|m| / 2^s` units. -/
theorem C69_split_digits (res : K) (hr : 0 < res) (s : Nat) (m : Int) :
    ∃ l h : Int, lsb res s (m * (2 * res)) = l * (2 * res) ∧ msb res s (m * (2 * res)) = h * (2 * res) ∧ m = l + 2 ^ s * h ∧
      |l| < 2 ^ s ∧ |h| * 2 ^ s ≤ |m| := by
  have h2 : (0 : K) < 2 * res := by positivity
  have hd : (m : K) * (2 * res) / (2 * res) = m := mul_div_cancel_right₀ _ h2.ne'
  have hp : (0 : K) < 2 ^ s := by positivity
  obtain ⟨l, hl⟩ := fmod_int (K := K) m (2 ^ s)
  obtain ⟨h, hh⟩ := quot_int (m : K) (2 ^ s)
  have hl' : fmod (m : K) (2 ^ s) = l := by rw [← hl]; push_cast; rfl
  refine ⟨l, h, ?_, ?_, ?_, ?_, ?_⟩
  · unfold lsb; rw [hd, hl']
  · unfold msb; rw [hd, hh]
  · have : (m : K) = ((l + 2 ^ s * h : Int) : K) := by
      push_cast
      rw [← hl', ← hh]
      unfold fmod; ring
    exact_mod_cast this
  · have : |(l : K)| < 2 ^ s := by rw [← hl']; exact abs_fmod_lt _ _ hp
    have h3 : ((|l| : Int) : K) < ((2 ^ s : Int) : K) := by rw [Int.cast_abs]; push_cast; exact this
    exact_mod_cast h3
  · have h0 : (0 : K) ≤ |(m : K)| / 2 ^ s := by positivity
    have h1 : (0 : K) ≤ (⌊|(m : K)| / 2 ^ s⌋ : K) := by exact_mod_cast Int.floor_nonneg.2 h0
    have : |(h : K)| * 2 ^ s ≤ |(m : K)| := by
      rw [← hh, abs_mul, abs_of_nonneg h1]
      calc |sgn (m : K)| * (⌊|(m : K)| / 2 ^ s⌋ : K) * 2 ^ s ≤ 1 * (⌊|(m : K)| / 2 ^ s⌋ : K) * 2 ^ s := by
            apply mul_le_mul_of_nonneg_right _ hp.le
            exact mul_le_mul_of_nonneg_right (abs_sgn_le _) h1
        _ ≤ |(m : K)| := by
            rw [one_mul]
            have := Int.floor_le (|(m : K)| / 2 ^ s)
            rwa [le_div_iff₀ hp] at this
    have h3 : ((|h| * 2 ^ s : Int) : K) ≤ ((|m| : Int) : K) := by push_cast; exact this
    exact_mod_cast h3

/-- **C69** (bits). Bit-wise mode with `n ≥ 1` bits represents an input exactly if its absolute value is below `2^n` time units (`2 res`); the
bits of an input of a whole number of units are `-1`, `0` or `1` units. -/
theorem C69_bits (res : K) (hr : 0 < res) (n : Nat) (hn : 0 < n) (hN : ilog (1 / res + 2) = n + 1) (x : List K) :
    (bitInputs res x).length = n ∧ (∀ b ∈ bitInputs res x, b.length = x.length) ∧
    (∀ r, r < x.length →
      (∑ b ∈ Finset.range n, 2 ^ b * ((bitInputs res x).getD b []).getD r 0 = x.getD r 0 ↔ |x.getD r 0| < 2 ^ n * (2 * res))) ∧
    ∀ r, r < x.length → ∀ m : Int, x.getD r 0 = m * (2 * res) →
      ∀ b, b < n → ∃ f : Int, |f| ≤ 1 ∧ ((bitInputs res x).getD b []).getD r 0 = f * (2 * res) := by
  have h2 : (0 : K) < 2 * res := by positivity
  have hget : ∀ b r, b < n → r < x.length →
      ((bitInputs res x).getD b []).getD r 0 = (bits (x.getD r 0 / (2 * res)) n).getD b 0 * (2 * res) := by
    intro b r hb hr'
    unfold bitInputs
    simp only [hN, Nat.add_sub_cancel]
    rw [List.getD_eq_getElem _ [] (by simpa using hb)]
    simp only [List.getElem_map, List.getElem_range]
    rw [List.getD_eq_getElem (x.map _) 0 (by simpa using hr'), List.getElem_map, List.getD_eq_getElem x 0 hr']
  have hlen : (bitInputs res x).length = n := by unfold bitInputs; simp only [List.length_map, List.length_range, hN, Nat.add_sub_cancel]
  refine ⟨hlen, ?_, ?_, ?_⟩
  · intro b hb
    unfold bitInputs at hb
    obtain ⟨k, -, rfl⟩ := List.mem_map.1 hb
    simp
  · intro r hr'
    set v := x.getD r 0 with hv
    have hsum : ∑ b ∈ Finset.range n, 2 ^ b * ((bitInputs res x).getD b []).getD r 0 = bitsSum (v / (2 * res)) n * (2 * res) := by
      unfold bitsSum
      rw [Finset.sum_mul]
      exact Finset.sum_congr rfl fun b hb => by rw [hget b r (Finset.mem_range.1 hb) hr']; ring
    rw [hsum]
    have habs : |v| < 2 ^ n * (2 * res) ↔ |v / (2 * res)| < 2 ^ n := by
      rw [abs_div, abs_of_pos h2, div_lt_iff₀ h2]
    rw [habs]
    constructor
    · intro h
      have : bitsSum (v / (2 * res)) n = v / (2 * res) := by rw [eq_div_iff h2.ne', h]
      rw [← this]
      exact bitsSum_lt n _
    · intro h
      rw [bitsSum_eq n hn _ h, div_mul_cancel₀ _ h2.ne']
  · intro r hr' m hm b hb
    rw [hget b r hb hr', hm, mul_div_cancel_right₀ _ h2.ne']
    have hlt : b < (bits (m : K) n).length := by rw [bits_length]; exact hb
    rw [List.getD_eq_getElem _ _ hlt]
    obtain ⟨f, h1, h3⟩ := bits_int (K := K) n m _ (List.getElem_mem hlt)
    exact ⟨f, h3, by rw [h1]⟩

/-- **C69** (input range). For the resolutions of the documented form all inputs within the input range `[-1, 1]` are represented exactly by
the bits. -/
theorem C69_bits_range (res : K) (hr : 0 < res) (N : Nat) (hN : 1 / res + 2 = 2 ^ N) (v : K) (hv : |v| ≤ 1) :
    |v| < 2 ^ (N - 1) * (2 * res) := by
  have hpos : 0 < 1 / res := by positivity
  have hN1 : 1 ≤ N := by
    rcases Nat.eq_zero_or_pos N with h | h
    · rw [h, pow_zero] at hN; linarith
    · exact h
  have e : (2 : K) ^ N = 2 * 2 ^ (N - 1) := by
    rw [← pow_succ']; congr 1; omega
  have h3 : 1 = (2 * 2 ^ (N - 1) - 2) * res := by
    rw [← e, ← hN]; field_simp; ring
  nlinarith

/-- **C69** (finding). The form of the resolution is not checked in bit-wise mode: for every other resolution the largest input `1` is not
represented unless the step count fits by accident; with `n` bits and `1 / res ≥ 2^(n + 1)` it is lost. -/
theorem C69_bits_lost (res : K) (hr : 0 < res) (n : Nat) (hn : 0 < n) (hN : ilog (1 / res + 2) = n + 1) (h : (2 : K) ^ (n + 1) ≤ 1 / res) :
    ∑ b ∈ Finset.range n, 2 ^ b * ((bitInputs res [1]).getD b []).getD 0 0 ≠ 1 := by
  have hiff := (C69_bits res hr n hn hN [1]).2.2.1 0 (by simp)
  simp only [List.getD_cons_zero, abs_one] at hiff
  intro h1
  have h2 := hiff.1 h1
  rw [le_div_iff₀ hr, pow_succ] at h
  linarith

/-! ## Without IR drop the modes agree -/

omit [LinearOrder K] [IsStrictOrderedRing K] [FloorRing K] in
theorem plain_get (cols : Nat) (w : List (List K)) (x : List K) (hx : x.length = w.length) :
    plain cols w x = (List.range cols).map fun j => ∑ r ∈ Finset.range x.length, x.getD r 0 * (w.getD r []).getD j 0 := by
  unfold plain
  apply List.map_congr_left
  intro j _
  induction x generalizing w with
  | nil => simp
  | cons a x ih =>
    cases w with
    | nil => simp at hx
    | cons l w =>
      rw [List.zipWith_cons_cons, List.sum_cons, ih w (by simpa using hx), List.length_cons, Finset.sum_range_succ']
      simp only [List.getD_cons_succ, List.getD_cons_zero]
      rw [add_comm]

omit [LinearOrder K] [IsStrictOrderedRing K] [FloorRing K] in
theorem addScaled_map (c : K) (n : Nat) (f g : Nat → K) :
    addScaled c ((List.range n).map f) ((List.range n).map g) = (List.range n).map fun j => f j + c * g j := by
  unfold addScaled
  rw [List.zipWith_map, List.zipWith_self]

/-- The ideal output stage. -/
def idle : Nat → List K → Bool × List K := fun _ o => (true, o)

theorem bitLoop_ok (j : Job K) (res : K) (y : List K → Nat → K) :
    ∀ (xs : List (List K)) (b : Nat) (o : Nat → K),
      (∀ x ∈ xs, matmul j.ir (j.inpBound / res) j.cols j.w (2 * res) 2 x = .ok ((List.range j.cols).map (y x))) →
      bitLoop j res idle b xs (true, (List.range j.cols).map o) =
        .ok (true, (List.range j.cols).map fun c => o c + ∑ k ∈ Finset.range xs.length, 2 ^ (b + k) * y (xs.getD k []) c) := by
  intro xs
  induction xs with
  | nil => intro b o _; simp [bitLoop]
  | cons x xs ih =>
    intro b o h
    rw [bitLoop, h x (by simp)]
    simp only [bind, Except.bind, idle, Bool.and_true]
    rw [addScaled_map]
    refine (ih (b + 1) (fun c => o c + 2 ^ b * y x c) (fun x' hx' => h x' (by simp [hx']))).trans ?_
    congr 2
    apply List.map_congr_left
    intro c _
    rw [List.length_cons, Finset.sum_range_succ']
    simp only [List.getD_cons_succ, List.getD_cons_zero, Nat.add_zero]
    rw [add_assoc, add_comm (2 ^ b * y x c)]
    congr 2
    exact Finset.sum_congr rfl fun k _ => by rw [show b + 1 + k = b + (k + 1) by ring]

/-- **C69** (modes agree). Without IR drop and with an ideal output stage the split mode gives the one-pass product for every accepted
configuration and every input, and the bit-wise mode for all inputs below `2^n` time units. -/
theorem C69_modes (j : Job K) (hir : j.ir = none) (hw : ∀ l ∈ j.w, l.length = j.cols) (res : K) (hres : getRes j.inpRes = .ok res) (x : List K)
    (hx : x.length = j.w.length) :
    (∃ y, y = plain j.cols j.w x ∧ compute j .onePass idle x = .ok (true, y) ∧
      (∀ s N, s < N → 1 / res + 2 = 2 ^ N → compute j (.split s) idle x = .ok (true, y)) ∧
      ∀ n, 0 < n → ilog (1 / res + 2) = n + 1 → (∀ v ∈ x, |v| < 2 ^ n * (2 * res)) → compute j .bitWise idle x = .ok (true, y)) := by
  have hr : 0 < res := by
    unfold getRes at hres
    simp only at hres
    split_ifs at hres with h1 h2 h3
    · injection hres with h; rw [← h]; exact h2
    · injection hres with h; rw [← h]; exact h3
  refine ⟨_, rfl, ?_, ?_, ?_⟩
  · unfold compute
    rw [hres, hir]
    rfl
  · intro s N hs hN
    obtain ⟨lo, hi, h1, h2, h3, h4⟩ := (C69_split res hr s x).1 ⟨N, hs, hN⟩
    unfold compute
    rw [hres, hir]
    simp only [bind, Except.bind, matmul]
    rw [h1]
    simp only [idle, Bool.and_true]
    rw [plain_get _ _ lo (by omega), plain_get _ _ hi (by omega), plain_get _ _ x hx, addScaled_map]
    congr 2
    apply List.map_congr_left
    intro c _
    rw [h2, h3, Finset.mul_sum, ← Finset.sum_add_distrib]
    refine Finset.sum_congr rfl fun r hr' => ?_
    rw [h4 r (Finset.mem_range.1 hr')]; ring
  · intro n hn hN hv
    obtain ⟨hl, hlen, hsum, -⟩ := C69_bits res hr n hn hN x
    unfold compute
    rw [hres]
    simp only [bind, Except.bind]
    have hrep : List.replicate j.cols (0 : K) = (List.range j.cols).map fun _ => 0 := by
      rw [List.map_const', List.length_range]
    rw [hrep, bitLoop_ok j res (fun x c => ∑ r ∈ Finset.range x.length, x.getD r 0 * (j.w.getD r []).getD c 0) _ 0 _ (by
      intro b hb
      rw [hir]
      simp only [matmul]
      rw [plain_get _ _ _ (by rw [hlen b hb, hx])])]
    rw [plain_get _ _ x hx]
    congr 2
    apply List.map_congr_left
    intro c _
    rw [zero_add, hl]
    have e : ∀ k ∈ Finset.range n, (2 : K) ^ (0 + k) * ∑ r ∈ Finset.range ((bitInputs res x).getD k []).length,
        ((bitInputs res x).getD k []).getD r 0 * (j.w.getD r []).getD c 0 =
        ∑ r ∈ Finset.range x.length, 2 ^ k * ((bitInputs res x).getD k []).getD r 0 * (j.w.getD r []).getD c 0 := by
      intro k hk
      have : ((bitInputs res x).getD k []).length = x.length := by
        rw [List.getD_eq_getElem _ _ (by rw [hl]; exact Finset.mem_range.1 hk)]
        exact hlen _ (List.getElem_mem _)
      rw [this, Nat.zero_add, Finset.mul_sum]
      exact Finset.sum_congr rfl fun r _ => by ring
    rw [Finset.sum_congr rfl e, Finset.sum_comm]
    refine Finset.sum_congr rfl fun r hr' => ?_
    have hr'' := Finset.mem_range.1 hr'
    rw [← Finset.sum_mul, (hsum r hr'').2]
    rw [List.getD_eq_getElem _ _ hr'']
    exact hv _ (List.getElem_mem _)

end Aihw.IrDrop
