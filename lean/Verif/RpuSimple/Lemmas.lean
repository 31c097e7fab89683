import Verif.RpuSimple.Spec
import Mathlib.Tactic.Ring

/-!
# Lemmas: memory and BLAS
-/
namespace Aihw.RpuSimple
open Aihw Finset

variable {K : Type} [Field K]

theorem div_at {n i j : ℕ} (h : j < n) : (i * n + j) / n = i := by
  rw [Nat.mul_comm, Nat.mul_add_div (by omega), Nat.div_eq_of_lt h, Nat.add_zero]

theorem mod_at {n i j : ℕ} (h : j < n) : (i * n + j) % n = j := by
  rw [Nat.mul_comm, Nat.mul_add_mod, Nat.mod_eq_of_lt h]

theorem div_ge {n M p : ℕ} (h : M * n ≤ p) (hn : 0 < n) : ¬ p / n < M := by
  intro h'
  have := (Nat.div_lt_iff_lt_mul hn).mp h'
  omega

theorem gemm_at (ta tb : Bool) (M N L : ℕ) (alpha : K) (A : Mem K) (lda : ℕ) (B : Mem K) (ldb : ℕ) (beta : K)
    (C : Mem K) (ldc i j : ℕ) (hi : i < M) (hj : j < N) (hl : N ≤ ldc) :
    gemm ta tb M N L alpha A lda B ldb beta C ldc (i * ldc + j) =
      alpha * (∑ k ∈ range L, A (if ta then k * lda + i else i * lda + k) * B (if tb then j * ldb + k else k * ldb + j))
        + beta * C (i * ldc + j) := by
  have h : j < ldc := by omega
  unfold gemm
  rw [div_at h, mod_at h, if_pos ⟨hi, hj⟩]

theorem gemm_beyond (ta tb : Bool) (M N L : ℕ) (alpha : K) (A : Mem K) (lda : ℕ) (B : Mem K) (ldb : ℕ) (beta : K)
    (C : Mem K) (ldc p : ℕ) (hp : M * ldc ≤ p) (hl : N ≤ ldc) :
    gemm ta tb M N L alpha A lda B ldb beta C ldc p = C p := by
  unfold gemm
  rw [if_neg]
  rintro ⟨h1, h2⟩
  by_cases hn : 0 < ldc
  · exact div_ge hp hn h1
  · have : N = 0 := by omega
    omega

theorem memcpy_in (dst src : Mem K) (doff soff n k : ℕ) (h : k < n) :
    memcpy dst doff src soff n (doff + k) = src (soff + k) := by
  unfold memcpy
  rw [if_pos ⟨by omega, by omega⟩]
  congr 1
  omega

theorem memcpy_out (dst src : Mem K) (doff soff n p : ℕ) (h : p < doff ∨ doff + n ≤ p) :
    memcpy dst doff src soff n p = dst p := by
  unfold memcpy
  rw [if_neg]
  omega

/-- A loop that copies rows. -/
theorem rows_copied (f : Mem K → ℕ → Mem K) (n s : ℕ) (g : ℕ → ℕ → K) (hs : s ≤ n)
    (h1 : ∀ b j k, k < s → f b j (j * n + k) = g j k)
    (h2 : ∀ b j p, (p < j * n ∨ j * n + s ≤ p) → f b j p = b p) :
    ∀ (m : ℕ) (b : Mem K), (∀ j k, j < m → k < s → (List.range m).foldl f b (j * n + k) = g j k) ∧
      ∀ p, m * n ≤ p → (List.range m).foldl f b p = b p := by
  intro m
  induction m with
  | zero => intro b; exact ⟨fun j k h => absurd h (by omega), fun p _ => rfl⟩
  | succ m ih =>
    intro b
    rw [List.range_succ, List.foldl_append]
    show (∀ j k, _ → _ → f _ m _ = _) ∧ ∀ p, _ → f _ m p = _
    refine ⟨?_, ?_⟩
    · intro j k hj hk
      rcases Nat.lt_or_ge j m with hl | hl
      · rw [h2]
        · exact (ih b).1 j k hl hk
        · left
          have : (j + 1) * n ≤ m * n := Nat.mul_le_mul_right n hl
          rw [Nat.succ_mul] at this
          omega
      · have : j = m := by omega
        subst this
        exact h1 _ j k hk
    · intro p hp
      rw [Nat.succ_mul] at hp
      rw [h2 _ _ _ (by right; omega)]
      exact (ih b).2 p (by omega)

/-- The loop that writes ones. -/
theorem ones_written (off : ℕ) : ∀ (m : ℕ) (b : Mem K),
    (∀ i, i < m → (List.range m).foldl (fun b i => put b (off + i) (1 : K)) b (off + i) = 1) ∧
      ∀ p, (p < off ∨ off + m ≤ p) → (List.range m).foldl (fun b i => put b (off + i) (1 : K)) b p = b p := by
  intro m
  induction m with
  | zero => intro b; exact ⟨fun i h => absurd h (by omega), fun p _ => rfl⟩
  | succ m ih =>
    intro b
    rw [List.range_succ, List.foldl_append]
    show (∀ i, _ → put _ (off + m) 1 _ = _) ∧ ∀ p, _ → put _ (off + m) 1 p = _
    refine ⟨?_, ?_⟩
    · intro i hi
      unfold put
      by_cases h : i = m
      · subst h; rw [if_pos rfl]
      · rw [if_neg (by omega)]
        exact (ih b).1 i (by omega)
    · intro p hp
      unfold put
      rw [if_neg (by omega)]
      exact (ih b).2 p (by omega)

/-- `makeBias` appends a one to every vector. -/
theorem makeBias_at (t : Rpu K) (buf X : Mem K) (m : ℕ) (xT : Bool) (hx : 1 ≤ t.xSz) (b j : ℕ) (hb : b < m)
    (hj : j < t.xSz) : makeBias buf X t.xSz m xT (pos xT m t.xSz b j) = xin t X true m xT b j := by
  unfold makeBias xin pos nIn
  cases xT with
  | true =>
    simp only [if_true, true_and]
    by_cases h : j = t.xSz - 1
    · rw [if_pos h, h, Nat.mul_comm (t.xSz - 1) m]
      exact (ones_written _ m _).1 b hb
    · rw [if_neg h]
      have hj' : j + 1 ≤ t.xSz - 1 := by omega
      have hlt : j * m + b < m * (t.xSz - 1) := by
        have := Nat.mul_le_mul_left m hj'
        rw [Nat.mul_succ, Nat.mul_comm m j] at this
        omega
      rw [(ones_written _ m _).2 _ (Or.inl hlt)]
      have := memcpy_in buf X 0 0 (m * (t.xSz - 1)) (j * m + b) hlt
      rw [Nat.zero_add] at this
      exact this
  | false =>
    simp only [Bool.false_eq_true, if_false, if_true, true_and]
    have key := rows_copied (K := K)
      (fun b j => put (memcpy b (j * t.xSz) X (j * (t.xSz - 1)) (t.xSz - 1)) (j * t.xSz + (t.xSz - 1)) 1) t.xSz t.xSz
      (fun j k => if k = t.xSz - 1 then 1 else X (j * (t.xSz - 1) + k)) le_rfl
      (by
        intro b j k hk
        show put _ _ _ _ = _
        unfold put
        by_cases h : k = t.xSz - 1
        · rw [if_pos h, if_pos (by rw [h])]
        · rw [if_neg h, if_neg (by omega)]
          exact memcpy_in _ _ _ _ _ _ (by omega))
      (by
        intro b j p hp
        show put _ _ _ _ = _
        unfold put
        rw [if_neg (by omega)]
        exact memcpy_out _ _ _ _ _ _ (by omega)) m buf
    exact key.1 b j hb hj

theorem toVectorBias_at (t : Rpu K) (buf X : Mem K) (hx : 1 ≤ t.xSz) (j : ℕ) (hj : j < t.xSz) :
    toVectorBias t buf X j = xin t X true 1 false 0 j := by
  unfold toVectorBias xin pos nIn put
  simp only [true_and, Bool.false_eq_true, if_false, if_true, Nat.zero_mul, Nat.zero_add]
  by_cases h : j = t.xSz - 1
  · rw [if_pos h, if_pos h]
  · rw [if_neg h, if_neg h]
    have := memcpy_in buf X 0 0 (t.xSz - 1) j (by omega)
    rw [Nat.zero_add] at this
    exact this

/-- The sum over the inputs with the bias split off. -/
theorem sum_bias (t : Rpu K) (X w : Mem K) (bias : Bool) (hx : bias = true → 1 ≤ t.xSz) (m : ℕ) (xT : Bool) (b i : ℕ) :
    ∑ j ∈ range t.xSz, entry t w i j * xin t X bias m xT b j =
      (∑ j ∈ range (nIn t bias), entry t w i j * X (pos xT m (nIn t bias) b j)) +
        if bias then entry t w i (t.xSz - 1) else 0 := by
  cases bias with
  | false => simp [xin, nIn]
  | true =>
    have h1 := hx rfl
    have e : range t.xSz = range (t.xSz - 1 + 1) := by congr 1; omega
    rw [e, sum_range_succ]
    simp only [nIn, if_true]
    congr 1
    · refine sum_congr rfl fun j hj => ?_
      rw [mem_range] at hj
      unfold xin
      rw [if_neg (by omega)]
      rfl
    · unfold xin
      rw [if_pos ⟨rfl, rfl⟩, mul_one]

theorem fbWeights_passes (t : Rpu K) (isTest : Bool) : Passes t isTest (fbWeights t isTest) := by
  unfold Passes fbWeights
  refine ⟨?_, ?_⟩
  · intro h; rw [h]
  · intro f h
    rw [h]
    refine ⟨?_, ?_⟩
    · rintro (h | h) <;> simp [h]
    · intro h1 h2; simp [h1, h2]

theorem passes_unique (t : Rpu K) (isTest : Bool) (w : Mem K) (h : Passes t isTest w) : w = fbWeights t isTest := by
  unfold fbWeights
  cases hf : t.fb with
  | none => exact h.1 hf
  | some f =>
    obtain ⟨h1, h2⟩ := h.2 f hf
    cases isTest <;> cases hb : t.fbTest <;> simp <;> first | exact h1 (Or.inl rfl) | exact h1 (Or.inr hb) | exact h2 rfl hb

end Aihw.RpuSimple
