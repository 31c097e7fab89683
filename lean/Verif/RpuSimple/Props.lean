import Verif.RpuSimple.Lemmas

/-!
# C87: the passes of the floating-point tile
-/
namespace Aihw.RpuSimple
open Aihw Finset

variable {K : Type} [Field K]

/-! ## Any layout -/

/-- The product with prepared inputs. -/
theorem forwardMatrix_at (t : Rpu K) (X D : Mem K) (m : ℕ) (xT dT isTest : Bool) :
    (∀ b i, b < m → i < t.dSz → forwardMatrix t X D m xT dT isTest (pos dT m t.dSz b i) =
      t.fAlpha * ∑ j ∈ range t.xSz, entry t (fbWeights t isTest) i j * X (pos xT m t.xSz b j)) ∧
    ∀ p, m * t.dSz ≤ p → forwardMatrix t X D m xT dT isTest p = D p := by
  refine ⟨?_, ?_⟩
  · intro b i hb hi
    unfold forwardMatrix
    cases dT with
    | true =>
      simp only [if_true, pos]
      rw [gemm_at _ _ _ _ _ _ _ _ _ _ _ _ _ _ _ hi hb le_rfl, zero_mul, add_zero]
      congr 1
      refine sum_congr rfl fun j _ => ?_
      cases xT <;> simp [entry]
    | false =>
      simp only [Bool.false_eq_true, if_false, pos]
      rw [gemm_at _ _ _ _ _ _ _ _ _ _ _ _ _ _ _ hb hi le_rfl, zero_mul, add_zero]
      congr 1
      refine sum_congr rfl fun j _ => ?_
      cases xT <;> simp [entry, mul_comm]
  · intro p hp
    unfold forwardMatrix
    cases dT with
    | true => exact gemm_beyond _ _ _ _ _ _ _ _ _ _ _ _ _ _ (by rw [Nat.mul_comm]; exact hp) le_rfl
    | false => exact gemm_beyond _ _ _ _ _ _ _ _ _ _ _ _ _ _ hp le_rfl

theorem forwardVector_at (t : Rpu K) (x D : Mem K) (isTest : Bool) :
    (∀ i, i < t.dSz → forwardVector t x D isTest i =
      t.fAlpha * ∑ j ∈ range t.xSz, entry t (fbWeights t isTest) i j * x j) ∧
    ∀ p, t.dSz ≤ p → forwardVector t x D isTest p = D p := by
  unfold forwardVector gemv
  refine ⟨?_, ?_⟩
  · intro i hi
    simp [hi, entry]
  · intro p hp
    simp [Nat.not_lt.mpr hp]

/-- **C87 (forward).** Whatever the layouts of input and output, output `i` of vector `b` is the product of row `i` of
the weights of the pass with the input, plus the last column if there is a bias, times the scale; nothing is written
beyond the outputs. -/
theorem C87_forward (t : Rpu K) (buf X D w : Mem K) (bias : Bool) (hx : bias = true → 1 ≤ t.xSz) (m : ℕ)
    (xT dT isTest : Bool) (hw : Passes t isTest w) :
    (∀ b i, b < m → i < t.dSz → forward t buf X D bias m xT dT isTest (pos dT m t.dSz b i) =
      t.fAlpha * ((∑ j ∈ range (nIn t bias), entry t w i j * X (pos xT m (nIn t bias) b j)) +
        if bias then entry t w i (t.xSz - 1) else 0)) ∧
    ∀ p, m * t.dSz ≤ p → forward t buf X D bias m xT dT isTest p = D p := by
  rw [passes_unique t isTest w hw]
  unfold forward
  by_cases hv : m = 1 ∧ (!xT) = true ∧ (!dT) = true
  · rw [if_pos hv]
    obtain ⟨rfl, h1, h2⟩ := hv
    have h1' : xT = false := by simpa using h1
    have h2' : dT = false := by simpa using h2
    subst h1' h2'
    have e : ∀ (x : Mem K), (∀ j, j < t.xSz → x j = xin t X bias 1 false 0 j) →
        (∀ b i, b < 1 → i < t.dSz → forwardVector t x D isTest (pos false 1 t.dSz b i) =
          t.fAlpha * ((∑ j ∈ range (nIn t bias), entry t (fbWeights t isTest) i j * X (pos false 1 (nIn t bias) b j)) +
            if bias then entry t (fbWeights t isTest) i (t.xSz - 1) else 0)) ∧
        ∀ p, 1 * t.dSz ≤ p → forwardVector t x D isTest p = D p := by
      intro x hxx
      refine ⟨?_, ?_⟩
      · intro b i hb hi
        have hb0 : b = 0 := by omega
        subst hb0
        rw [← sum_bias t X _ bias hx 1 false 0 i]
        have hp : pos false 1 t.dSz 0 i = i := by simp [pos]
        rw [hp, (forwardVector_at t x D isTest).1 i hi]
        congr 1
        refine sum_congr rfl fun j hj => ?_
        rw [hxx j (mem_range.mp hj)]
      · intro p hp
        exact (forwardVector_at t x D isTest).2 p (by omega)
    cases bias with
    | true => exact e _ fun j hj => toVectorBias_at t buf X (hx rfl) j hj
    | false => exact e _ fun j hj => by simp [xin, pos, nIn]
  · rw [if_neg hv]
    cases bias with
    | true =>
      refine ⟨?_, (forwardMatrix_at t _ D m xT dT isTest).2⟩
      intro b i hb hi
      show forwardMatrix t _ D m xT dT isTest _ = _
      rw [← sum_bias t X _ true hx m xT b i, (forwardMatrix_at t _ D m xT dT isTest).1 b i hb hi]
      congr 1
      refine sum_congr rfl fun j hj => ?_
      rw [makeBias_at t buf X m xT (hx rfl) b j hb (mem_range.mp hj)]
    | false =>
      refine ⟨?_, (forwardMatrix_at t _ D m xT dT isTest).2⟩
      intro b i hb hi
      show forwardMatrix t _ D m xT dT isTest _ = _
      rw [(forwardMatrix_at t _ D m xT dT isTest).1 b i hb hi]
      simp [nIn]

theorem backwardMatrix_at (t : Rpu K) (D X : Mem K) (m : ℕ) (dT xT : Bool) :
    (∀ b j, b < m → j < t.xSz → backwardMatrix t D X m dT xT (pos xT m t.xSz b j) =
      t.bAlpha * ∑ i ∈ range t.dSz, entry t (fbWeights t false) i j * D (pos dT m t.dSz b i)) ∧
    ∀ p, m * t.xSz ≤ p → backwardMatrix t D X m dT xT p = X p := by
  refine ⟨?_, ?_⟩
  · intro b j hb hj
    unfold backwardMatrix
    cases xT with
    | true =>
      simp only [if_true, pos]
      rw [gemm_at _ _ _ _ _ _ _ _ _ _ _ _ _ _ _ hj hb le_rfl, zero_mul, add_zero]
      congr 1
      refine sum_congr rfl fun i _ => ?_
      cases dT <;> simp [entry]
    | false =>
      simp only [Bool.false_eq_true, if_false, pos]
      rw [gemm_at _ _ _ _ _ _ _ _ _ _ _ _ _ _ _ hb hj le_rfl, zero_mul, add_zero]
      congr 1
      refine sum_congr rfl fun i _ => ?_
      cases dT <;> simp [entry, mul_comm]
  · intro p hp
    unfold backwardMatrix
    cases xT with
    | true => exact gemm_beyond _ _ _ _ _ _ _ _ _ _ _ _ _ _ (by rw [Nat.mul_comm]; exact hp) le_rfl
    | false => exact gemm_beyond _ _ _ _ _ _ _ _ _ _ _ _ _ _ hp le_rfl

theorem backwardVector_at (t : Rpu K) (D X : Mem K) :
    (∀ j, j < t.xSz → backwardVector t D X j =
      t.bAlpha * ∑ i ∈ range t.dSz, entry t (fbWeights t false) i j * D i) ∧
    ∀ p, t.xSz ≤ p → backwardVector t D X p = X p := by
  unfold backwardVector gemv
  refine ⟨?_, ?_⟩
  · intro i hi
    simp [hi, entry]
  · intro p hp
    simp [Nat.not_lt.mpr hp]

/-- Copying without the last component. -/
theorem copyWithoutBias_at (X buf : Mem K) (size m : ℕ) (xT : Bool) :
    (∀ b j, b < m → j < size - 1 → copyWithoutBias X buf size m xT (pos xT m (size - 1) b j) =
      buf (pos xT m size b j)) ∧
    ∀ p, m * (size - 1) ≤ p → copyWithoutBias X buf size m xT p = X p := by
  unfold copyWithoutBias pos
  cases xT with
  | true =>
    simp only [if_true]
    refine ⟨?_, ?_⟩
    · intro b j hb hj
      have hlt : j * m + b < m * (size - 1) := by
        have := Nat.mul_le_mul_left m (show j + 1 ≤ size - 1 by omega)
        rw [Nat.mul_succ, Nat.mul_comm m j] at this
        omega
      have := memcpy_in X buf 0 0 (m * (size - 1)) (j * m + b) hlt
      rw [Nat.zero_add] at this
      exact this
    · intro p hp
      exact memcpy_out _ _ _ _ _ _ (by omega)
  | false =>
    simp only [Bool.false_eq_true, if_false]
    have key := rows_copied (K := K) (fun x j => memcpy x (j * (size - 1)) buf (j * size) (size - 1)) (size - 1)
      (size - 1) (fun j k => buf (j * size + k)) le_rfl
      (fun b j k hk => memcpy_in _ _ _ _ _ _ hk) (fun b j p hp => memcpy_out _ _ _ _ _ _ hp) m X
    exact key

/-- **C87 (backward).** Component `j` of the backward pass of vector `b` is the product of column `j` of the weights of
the training pass with the errors, times the scale; the bias column is left out, and nothing else is written. -/
theorem C87_backward (t : Rpu K) (buf D X w : Mem K) (bias : Bool) (hx : bias = true → 1 ≤ t.xSz) (m : ℕ)
    (dT xT : Bool) (hw : Passes t false w) :
    (∀ b j, b < m → j < nIn t bias → backward t buf D X bias m dT xT (pos xT m (nIn t bias) b j) =
      t.bAlpha * ∑ i ∈ range t.dSz, entry t w i j * D (pos dT m t.dSz b i)) ∧
    ∀ p, m * nIn t bias ≤ p → backward t buf D X bias m dT xT p = X p := by
  rw [passes_unique t false w hw]
  unfold backward
  by_cases hv : m = 1 ∧ (!xT) = true ∧ (!dT) = true
  · rw [if_pos hv]
    obtain ⟨rfl, h1, h2⟩ := hv
    have h1' : xT = false := by simpa using h1
    have h2' : dT = false := by simpa using h2
    subst h1' h2'
    have hD : ∀ b i, b < 1 → D (pos false 1 t.dSz b i) = D i := by
      intro b i hb
      have : b = 0 := by omega
      subst this
      simp [pos]
    cases bias with
    | true =>
      have h1 := hx rfl
      refine ⟨?_, ?_⟩
      · intro b j hb hj
        simp only [hD b _ hb]
        have hb0 : b = 0 := by omega
        subst hb0
        simp only [nIn, if_true] at hj
        simp only [if_true, pos, Bool.false_eq_true, if_false, Nat.zero_mul]
        rw [memcpy_in _ _ _ _ _ _ hj, Nat.zero_add]
        exact (backwardVector_at t D buf).1 j (by omega)
      · intro p hp
        simp only [nIn, if_true] at hp
        exact memcpy_out _ _ _ _ _ _ (by omega)
    | false =>
      refine ⟨?_, ?_⟩
      · intro b j hb hj
        simp only [hD b _ hb]
        have hb0 : b = 0 := by omega
        subst hb0
        simp only [nIn, Bool.false_eq_true, if_false] at hj
        simp only [pos, Bool.false_eq_true, if_false, Nat.zero_mul, Nat.zero_add]
        exact (backwardVector_at t D X).1 j hj
      · intro p hp
        simp only [nIn, Bool.false_eq_true, if_false] at hp
        exact (backwardVector_at t D X).2 p (by omega)
  · rw [if_neg hv]
    cases bias with
    | true =>
      have h1 := hx rfl
      refine ⟨?_, ?_⟩
      · intro b j hb hj
        simp only [nIn, if_true] at hj ⊢
        rw [(copyWithoutBias_at _ _ _ _ _).1 b j hb hj]
        exact (backwardMatrix_at t D buf m dT xT).1 b j hb (by omega)
      · intro p hp
        simp only [nIn, if_true] at hp ⊢
        exact (copyWithoutBias_at _ _ _ _ _).2 p hp
    | false =>
      simp only [nIn, Bool.false_eq_true, if_false]
      exact backwardMatrix_at t D X m dT xT

/-- The memory an update writes to: the gradient memory if there is one, else the weights. -/
theorem updateMatrix_eq (t : Rpu K) (X D : Mem K) (m : ℕ) (xT dT : Bool) :
    ∃ u, updateMatrix t X D m xT dT = setUp t u ∧
      (∀ i j, i < t.dSz → j < t.xSz → u (i * t.xSz + j) = upBeta t * upWeights t (i * t.xSz + j) -
        alphaLR t * ∑ b ∈ range m, D (pos dT m t.dSz b i) * X (pos xT m t.xSz b j)) ∧
      ∀ p, t.dSz * t.xSz ≤ p → u p = upWeights t p := by
  refine ⟨_, rfl, ?_, ?_⟩
  · intro i j hi hj
    rw [gemm_at _ _ _ _ _ _ _ _ _ _ _ _ _ _ _ hi hj le_rfl]
    have e : (∑ k ∈ range m, D (if (!dT) = true then k * (if dT = true then m else t.dSz) + i else
        i * (if dT = true then m else t.dSz) + k) * X (if xT = true then j * (if xT = true then m else t.xSz) + k else
        k * (if xT = true then m else t.xSz) + j)) =
        ∑ b ∈ range m, D (pos dT m t.dSz b i) * X (pos xT m t.xSz b j) := by
      refine sum_congr rfl fun b _ => ?_
      cases dT <;> cases xT <;> simp [pos]
    rw [e]
    ring
  · intro p hp
    exact gemm_beyond _ _ _ _ _ _ _ _ _ _ _ _ _ _ hp le_rfl

theorem updateVector_eq (t : Rpu K) (x D : Mem K) :
    ∃ u, updateVector t x D = setUp t u ∧
      (∀ i j, i < t.dSz → j < t.xSz → u (i * t.xSz + j) = upBeta t * upWeights t (i * t.xSz + j) -
        alphaLR t * (D i * x j)) ∧
      ∀ p, t.dSz * t.xSz ≤ p → u p = upWeights t p := by
  unfold updateVector
  by_cases h : t.dw.isNone = true
  · rw [if_pos h]
    refine ⟨_, rfl, ?_, ?_⟩
    · intro i j hi hj
      unfold ger upBeta
      rw [div_at hj, mod_at hj, if_pos ⟨hi, hj⟩, if_pos h]
      ring
    · intro p hp
      unfold ger
      rw [if_neg]
      rintro ⟨h1, h2⟩
      exact div_ge hp (by omega) h1
  · rw [if_neg h]
    obtain ⟨u, e, h1, h2⟩ := updateMatrix_eq t x D 1 false false
    refine ⟨u, e, ?_, h2⟩
    intro i j hi hj
    rw [h1 i j hi hj]
    simp [pos]

/-- The update in one formula. -/
theorem update_eq (t : Rpu K) (buf X D : Mem K) (bias : Bool) (hx : bias = true → 1 ≤ t.xSz) (m : ℕ) (xT dT : Bool) :
    ∃ u, update t buf X D bias m xT dT = setUp t u ∧
      (∀ i j, i < t.dSz → j < t.xSz → u (i * t.xSz + j) = upBeta t * upWeights t (i * t.xSz + j) -
        alphaLR t * outer t X D bias m xT dT i j) ∧
      ∀ p, t.dSz * t.xSz ≤ p → u p = upWeights t p := by
  unfold update
  by_cases hv : m = 1 ∧ (!xT) = true ∧ (!dT) = true
  · rw [if_pos hv]
    obtain ⟨rfl, h1, h2⟩ := hv
    have h1' : xT = false := by simpa using h1
    have h2' : dT = false := by simpa using h2
    subst h1' h2'
    have e : ∀ (x : Mem K), (∀ j, j < t.xSz → x j = xin t X bias 1 false 0 j) →
        ∃ u, updateVector t x D = setUp t u ∧
          (∀ i j, i < t.dSz → j < t.xSz → u (i * t.xSz + j) = upBeta t * upWeights t (i * t.xSz + j) -
            alphaLR t * outer t X D bias 1 false false i j) ∧
          ∀ p, t.dSz * t.xSz ≤ p → u p = upWeights t p := by
      intro x hxx
      obtain ⟨u, e, h1, h2⟩ := updateVector_eq t x D
      refine ⟨u, e, ?_, h2⟩
      intro i j hi hj
      rw [h1 i j hi hj, hxx j hj]
      unfold outer
      rw [sum_range_one]
      simp [pos]
    cases bias with
    | true => exact e _ fun j hj => toVectorBias_at t buf X (hx rfl) j hj
    | false => exact e _ fun j hj => by simp [xin, pos, nIn]
  · rw [if_neg hv]
    have e : ∀ (x : Mem K), (∀ b j, b < m → j < t.xSz → x (pos xT m t.xSz b j) = xin t X bias m xT b j) →
        ∃ u, updateMatrix t x D m xT dT = setUp t u ∧
          (∀ i j, i < t.dSz → j < t.xSz → u (i * t.xSz + j) = upBeta t * upWeights t (i * t.xSz + j) -
            alphaLR t * outer t X D bias m xT dT i j) ∧
          ∀ p, t.dSz * t.xSz ≤ p → u p = upWeights t p := by
      intro x hxx
      obtain ⟨u, e, h1, h2⟩ := updateMatrix_eq t x D m xT dT
      refine ⟨u, e, ?_, h2⟩
      intro i j hi hj
      rw [h1 i j hi hj]
      unfold outer
      congr 2
      refine sum_congr rfl fun b hb => ?_
      rw [hxx b j (mem_range.mp hb) hj]
    cases bias with
    | true => exact e _ fun b j hb hj => makeBias_at t buf X m xT (hx rfl) b j hb hj
    | false => exact e _ fun b j hb hj => by simp [xin, nIn]

/-- **C87 (update).** Without gradient memory, an update subtracts learning rate times the sum of the outer products of
errors and (extended) inputs from the weights - whatever the layouts and the batch - and changes nothing else. -/
theorem C87_update (t : Rpu K) (ht : t.dw = none) (buf X D : Mem K) (bias : Bool) (hx : bias = true → 1 ≤ t.xSz)
    (m : ℕ) (xT dT : Bool) :
    ∃ w', update t buf X D bias m xT dT = { t with w := w' } ∧
      (∀ i j, i < t.dSz → j < t.xSz → w' (i * t.xSz + j) =
        t.w (i * t.xSz + j) - t.lr / t.bAlpha * outer t X D bias m xT dT i j) ∧
      ∀ p, t.dSz * t.xSz ≤ p → w' p = t.w p := by
  obtain ⟨u, e, h1, h2⟩ := update_eq t buf X D bias hx m xT dT
  refine ⟨u, ?_, ?_, ?_⟩
  · rw [e]; simp only [setUp, ht]
  · intro i j hi hj
    rw [h1 i j hi hj]
    simp [upBeta, upWeights, alphaLR, ht]
  · intro p hp
    rw [h2 p hp]
    simp only [upWeights, ht]

/-- **C87 (gradient).** With gradient memory, an update writes the sum of the outer products there, independently of
the learning rate and of what was in the memory, and keeps the weights. -/
theorem C87_gradient (t : Rpu K) (g : Mem K) (ht : t.dw = some g) (buf X D : Mem K) (bias : Bool)
    (hx : bias = true → 1 ≤ t.xSz) (m : ℕ) (xT dT : Bool) :
    ∃ g', update t buf X D bias m xT dT = { t with dw := some g' } ∧
      (∀ i j, i < t.dSz → j < t.xSz → g' (i * t.xSz + j) = outer t X D bias m xT dT i j / t.bAlpha) ∧
      ∀ p, t.dSz * t.xSz ≤ p → g' p = g p := by
  obtain ⟨u, e, h1, h2⟩ := update_eq t buf X D bias hx m xT dT
  refine ⟨u, ?_, ?_, ?_⟩
  · rw [e]; simp only [setUp, ht]
  · intro i j hi hj
    rw [h1 i j hi hj]
    simp only [upBeta, alphaLR, ht, Option.isSome_some, Option.isNone_some, if_true, Bool.false_eq_true, if_false]
    rw [div_eq_mul_inv, div_eq_mul_inv]
    ring
  · intro p hp
    rw [h2 p hp]
    simp only [upWeights, ht]

end Aihw.RpuSimple
