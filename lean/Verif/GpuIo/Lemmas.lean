import Verif.GpuIo.Spec
import Mathlib.Algebra.BigOperators.Ring.Finset
import Mathlib.Data.List.Nodup
import Mathlib.Tactic.Ring
import Mathlib.Tactic.Linarith

/-!
# Loops, layouts and products
-/
open scoped BigOperators

namespace Aihw.GpuIo

open Aihw.CppFwd (MVPar)
open Aihw.GpuNm (place nBlocks)

variable {K : Type} [Field K] [LinearOrder K] [IsStrictOrderedRing K] [FloorRing K]

/-! ## Loops -/

theorem mem_visits (T size idx : ℕ) (hT : 1 ≤ T) : idx ∈ visits T size ↔ idx < size := by
  unfold visits
  rw [List.mem_flatMap]
  constructor
  · rintro ⟨tid, _, h⟩
    rw [List.mem_filter] at h
    exact of_decide_eq_true h.2
  · intro h
    refine ⟨idx % T, List.mem_range.mpr (Nat.mod_lt _ hT), ?_⟩
    rw [List.mem_filter, List.mem_map]
    refine ⟨⟨idx / T, List.mem_range.mpr ?_, Nat.div_add_mod' idx T⟩, decide_eq_true h⟩
    unfold nBlocks
    rw [Nat.lt_iff_add_one_le, Nat.le_div_iff_mul_le hT]
    have := Nat.div_mul_le_self idx T
    have e : (idx / T + 1) * T = idx / T * T + T := Nat.succ_mul _ _
    omega

theorem nodup_visits (T size : ℕ) : (visits T size).Nodup := by
  unfold visits
  rw [List.nodup_flatMap]
  constructor
  · intro tid ht
    have hT := List.mem_range.mp ht
    refine List.Nodup.filter _ ((List.nodup_range).map ?_)
    intro a b h
    have h' : a * T + tid = b * T + tid := h
    exact Nat.eq_of_mul_eq_mul_right (by omega) (by omega : a * T = b * T)
  · refine List.Pairwise.imp_of_mem ?_ (List.nodup_range (n := T))
    intro a b ha hb hne idx h1 h2
    have hT := List.mem_range.mp ha
    have hT' := List.mem_range.mp hb
    obtain ⟨⟨k, _, e1⟩, _⟩ := (List.mem_filter.mp h1).imp List.mem_map.mp id
    obtain ⟨⟨l, _, e2⟩, _⟩ := (List.mem_filter.mp h2).imp List.mem_map.mp id
    apply hne
    have m1 : idx % T = a := by rw [← e1, Nat.mul_comm, Nat.mul_add_mod, Nat.mod_eq_of_lt hT]
    have m2 : idx % T = b := by rw [← e2, Nat.mul_comm, Nat.mul_add_mod, Nat.mod_eq_of_lt hT']
    rw [← m1, m2]

theorem foldOut_at (body : ℕ → K → K) (input : Arr K) (L : List ℕ) :
    ∀ (mem : Arr K) (i : ℕ), L.foldl (fun mem idx => Function.update mem idx (body idx (input idx))) mem i =
      if i ∈ L then body i (input i) else mem i := by
  induction L with
  | nil => intro mem i; rfl
  | cons a L ih =>
    intro mem i
    rw [List.foldl_cons, ih]
    by_cases h : i ∈ L
    · rw [if_pos h, if_pos (List.mem_cons_of_mem _ h)]
    · rw [if_neg h]
      by_cases e : i = a
      · subst e
        rw [if_pos List.mem_cons_self, Function.update_self]
      · rw [Function.update_of_ne e, if_neg (by rw [List.mem_cons]; tauto)]

theorem foldIn_at (body : ℕ → K → K) (L : List ℕ) :
    ∀ (mem : Arr K) (i : ℕ), L.Nodup →
      L.foldl (fun mem idx => Function.update mem idx (body idx (mem idx))) mem i =
      if i ∈ L then body i (mem i) else mem i := by
  induction L with
  | nil => intro mem i _; rfl
  | cons a L ih =>
    intro mem i hn
    have hn' := List.nodup_cons.mp hn
    rw [List.foldl_cons, ih _ _ hn'.2]
    by_cases e : i = a
    · subst e
      rw [if_neg hn'.1, if_pos List.mem_cons_self, Function.update_self]
    · rw [Function.update_of_ne e]
      by_cases h : i ∈ L
      · rw [if_pos h, if_pos (List.mem_cons_of_mem _ h)]
      · rw [if_neg h, if_neg (by rw [List.mem_cons]; tauto)]

/-! ## Layouts -/

theorem place_lt {t : Bool} {n m b j : ℕ} (hb : b < m) (hj : j < n) : place t n m b j < n * m := by
  unfold place
  cases t with
  | true =>
    have := Nat.mul_le_mul_right m (Nat.succ_le_of_lt hj)
    rw [Nat.succ_mul] at this
    simp only [if_true]; omega
  | false =>
    have := Nat.mul_le_mul_right n (Nat.succ_le_of_lt hb)
    rw [Nat.succ_mul] at this
    rw [Nat.mul_comm n m]
    simp only [Bool.false_eq_true, if_false]; omega

theorem sampleOf_place {t : Bool} {n m b j : ℕ} (hb : b < m) (hj : j < n) :
    sampleOf t m n (place t n m b j) = b := by
  unfold sampleOf place
  cases t with
  | true =>
    simp only [if_true]
    rw [Nat.mul_comm, Nat.mul_add_mod, Nat.mod_eq_of_lt hb]
  | false =>
    simp only [Bool.false_eq_true, if_false]
    rw [Nat.mul_comm, Nat.mul_add_div (by omega), Nat.div_eq_of_lt hj, Nat.add_zero]

theorem outputOf_place {t : Bool} {n m b j : ℕ} (hb : b < m) (hj : j < n) :
    outputOf t m n (place t n m b j) = j := by
  unfold outputOf place
  cases t with
  | true =>
    simp only [if_true]
    rw [Nat.mul_comm, Nat.mul_add_div (by omega), Nat.div_eq_of_lt hb, Nat.add_zero]
  | false =>
    simp only [Bool.false_eq_true, if_false]
    rw [Nat.mul_comm, Nat.mul_add_mod, Nat.mod_eq_of_lt hj]

theorem place_one (t : Bool) (n j : ℕ) : place t n 1 0 j = j := by
  unfold place; cases t <;> simp

theorem mapTo_place {t : Bool} {n m b j : ℕ} (hb : b < m) (hj : j < n) (body : ℕ → K → K) (x out : Arr K) :
    mapTo (n * m) body x out (place t n m b j) = body (place t n m b j) (x (place t n m b j)) := by
  unfold mapTo
  rw [if_pos (place_lt hb hj)]

theorem mapTo_view {t : Bool} {n m b j : ℕ} (hb : b < m) (hj : j < n) (body : ℕ → K → K) (x out : Arr K) :
    view t n m (mapTo (n * m) body x out) b j = body (place t n m b j) (view t n m x b j) :=
  mapTo_place hb hj body x out

/-! ## Products -/

theorem gemm_at (ta tb : Bool) (M N L : ℕ) (alpha : K) (A : Arr K) (lda : ℕ) (B : Arr K) (ldb : ℕ)
    (C : Arr K) (ldc i j : ℕ) (hl : M ≤ ldc) (hi : i < M) (hj : j < N) :
    gemm ta tb M N L alpha A lda B ldb C ldc (j * ldc + i) =
      alpha * ∑ l ∈ Finset.range L, at2 ta A lda i l * at2 tb B ldb l j := by
  have e1 : (j * ldc + i) % ldc = i := by
    rw [Nat.mul_comm, Nat.mul_add_mod, Nat.mod_eq_of_lt (by omega)]
  have e2 : (j * ldc + i) / ldc = j := by
    rw [Nat.mul_comm, Nat.mul_add_div (by omega), Nat.div_eq_of_lt (by omega), Nat.add_zero]
  unfold gemm
  rw [e1, e2, if_pos ⟨hi, hj⟩]

theorem at2_view (t : Bool) (x : Arr K) (n m b l : ℕ) :
    at2 (!t) x (if t then m else n) b l = view t n m x b l ∧
      at2 t x (if t then m else n) l b = view t n m x b l := by
  unfold at2 view place
  cases t <;> simp

/-- The product, in all layouts: each sample is multiplied with the matrix. -/
theorem product_view (c : Ctx K) (W inp out : Arr K) (alpha : K) (b i : ℕ) (hb : b < c.m)
    (hi : i < c.nOut) :
    view c.outT c.nOut c.m (c.product W inp out alpha) b i =
      alpha * ∑ l ∈ Finset.range c.nIn, c.mat W i l * view c.inT c.nIn c.m inp b l := by
  obtain ⟨X, D, m, tr, inT, outT, W', io, p, al⟩ := c
  unfold Ctx.product Ctx.mat
  unfold Ctx.nOut at hi ⊢
  unfold Ctx.nIn
  have hb' : b < m := hb
  cases tr with
  | true =>
    have hi' : i < X := hi
    show backwardMatrix W inp D inT out X outT m alpha (place outT X m b i) =
      alpha * ∑ l ∈ Finset.range D, W (i * D + l) * view inT D m inp b l
    unfold backwardMatrix
    by_cases h1 : m = 1
    · rw [if_pos h1]
      subst h1
      obtain rfl : b = 0 := by omega
      unfold gemv view
      rw [place_one]
      simp only [if_true]
      rw [if_pos hi']
      congr 1
      refine Finset.sum_congr rfl fun l _ => ?_
      rw [place_one]; rfl
    · rw [if_neg h1]
      cases outT with
      | true =>
        show gemm _ _ _ _ _ _ _ _ _ _ _ _ (i * m + b) = _
        rw [gemm_at _ _ _ _ _ _ _ _ _ _ _ _ _ _ (le_refl _) hb' hi']
        congr 1
        refine Finset.sum_congr rfl fun l _ => ?_
        rw [(at2_view inT inp D m b l).1, mul_comm]; rfl
      | false =>
        show gemm _ _ _ _ _ _ _ _ _ _ _ _ (b * X + i) = _
        rw [gemm_at _ _ _ _ _ _ _ _ _ _ _ _ _ _ (le_refl _) hi' hb']
        congr 1
        refine Finset.sum_congr rfl fun l _ => ?_
        rw [(at2_view inT inp D m b l).2]; rfl
  | false =>
    have hi' : i < D := hi
    show forwardMatrix W inp X inT out D outT m alpha (place outT D m b i) =
      alpha * ∑ l ∈ Finset.range X, W (l * D + i) * view inT X m inp b l
    unfold forwardMatrix
    by_cases h1 : m = 1
    · rw [if_pos h1]
      subst h1
      obtain rfl : b = 0 := by omega
      unfold gemv view
      rw [place_one]
      simp only [Bool.false_eq_true, if_false]
      rw [if_pos hi']
      congr 1
      refine Finset.sum_congr rfl fun l _ => ?_
      rw [place_one]; rfl
    · rw [if_neg h1]
      cases outT with
      | true =>
        show gemm _ _ _ _ _ _ _ _ _ _ _ _ (i * m + b) = _
        rw [gemm_at _ _ _ _ _ _ _ _ _ _ _ _ _ _ (le_refl _) hb' hi']
        congr 1
        refine Finset.sum_congr rfl fun l _ => ?_
        rw [(at2_view inT inp X m b l).1, mul_comm]; rfl
      | false =>
        show gemm _ _ _ _ _ _ _ _ _ _ _ _ (b * D + i) = _
        rw [gemm_at _ _ _ _ _ _ _ _ _ _ _ _ _ _ (le_refl _) hi' hb']
        congr 1
        refine Finset.sum_congr rfl fun l _ => ?_
        rw [(at2_view inT inp X m b l).2]; rfl

end Aihw.GpuIo
