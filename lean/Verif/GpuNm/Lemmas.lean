import Verif.GpuNm.Spec
import Mathlib.Data.List.Nodup
import Mathlib.Data.List.Perm.Lattice
import Mathlib.Data.List.Induction
import Mathlib.Tactic.Ring

/-!
# Reductions with atomic operations do not depend on the order
-/
open scoped BigOperators

namespace Aihw.GpuNm

variable {K : Type} [Field K] [LinearOrder K] [IsStrictOrderedRing K] [FloorRing K]

/-- What a reduction has to satisfy. -/
structure Acc.Laws (a : Acc K) : Prop where
  comm : ∀ x y : K, a.op x y = a.op y x
  assoc : ∀ x y z : K, a.op (a.op x y) z = a.op x (a.op y z)
  idem : a.op a.e a.e = a.e

theorem amax_laws : (amaxAcc : Acc K).Laws :=
  ⟨max_comm, max_assoc, max_self _⟩

theorem max_laws (lowest : K) : (maxAcc lowest).Laws :=
  ⟨max_comm, max_assoc, max_self _⟩

theorem psum_laws : (psumAcc : Acc K).Laws :=
  ⟨add_comm, add_assoc, add_zero _⟩

theorem nsum_laws : (nsumAcc : Acc K).Laws :=
  ⟨add_comm, add_assoc, add_zero _⟩

variable {a : Acc K}

/-- The elements which the initial value does not change. -/
def Acc.Absorbs (a : Acc K) (v : K) : Prop := a.op a.e v = v

theorem left_comm (h : a.Laws) (x y z : K) : a.op x (a.op y z) = a.op y (a.op x z) := by
  rw [← h.assoc, h.comm x y, h.assoc]

theorem total_snoc (a : Acc K) (L : List K) (v : K) : a.total (L ++ [v]) = a.op v (a.total L) := by
  simp only [Acc.total, List.foldl_append, List.foldl_cons, List.foldl_nil]

theorem total_absorbs (h : a.Laws) (L : List K) : a.Absorbs (a.total L) := by
  induction L using List.reverseRecOn with
  | nil => exact h.idem
  | append_singleton L v ih =>
    unfold Acc.Absorbs at *
    rw [total_snoc, left_comm h, ih]

theorem fold_total (h : a.Laws) (L : List K) (x : K) (hx : a.Absorbs x) :
    L.foldl (fun acc v => a.op v acc) x = a.op (a.total L) x := by
  induction L using List.reverseRecOn with
  | nil => exact hx.symm
  | append_singleton L v ih =>
    rw [List.foldl_append, total_snoc, h.assoc, ← ih]; rfl

theorem total_append (h : a.Laws) (L M : List K) :
    a.total (L ++ M) = a.op (a.total M) (a.total L) := by
  rw [← fold_total h M _ (total_absorbs h L)]
  simp only [Acc.total, List.foldl_append]

theorem fold_totals (h : a.Laws) (Ls : List (List K)) (x : K) (hx : a.Absorbs x) :
    (Ls.map a.total).foldl (fun acc v => a.op v acc) x = a.op (a.total Ls.flatten) x := by
  induction Ls using List.reverseRecOn with
  | nil => exact hx.symm
  | append_singleton Ls L ih =>
    rw [List.map_append, List.foldl_append, ih, List.flatten_append, total_append h]
    simp only [List.map_cons, List.map_nil, List.foldl_cons, List.foldl_nil, List.flatten_cons,
      List.flatten_nil, List.append_nil]
    rw [h.assoc]

theorem fold_perm (h : a.Laws) {L M : List K} (p : L.Perm M) (x : K) :
    L.foldl (fun acc v => a.op v acc) x = M.foldl (fun acc v => a.op v acc) x := by
  haveI : RightCommutative (fun (acc v : K) => a.op v acc) := ⟨fun x y z => left_comm h z y x⟩
  exact p.foldl_eq x

theorem total_perm (h : a.Laws) {L M : List K} (p : L.Perm M) : a.total L = a.total M :=
  fold_perm h p a.e

/-- One element of memory after atomic operations. -/
theorem atomic_at {α : Type} (a : Acc K) (i : α → ℕ) (v : α → K) (L : List α) (mem : ℕ → K) (b : ℕ) :
    (L.foldl (fun mem x => a.atomic mem (i x) (v x)) mem) b =
      ((L.filter fun x => decide (i x = b)).map v).foldl (fun acc v => a.op v acc) (mem b) := by
  induction L generalizing mem with
  | nil => rfl
  | cons x L ih =>
    rw [List.foldl_cons, ih]
    by_cases hx : i x = b
    · rw [List.filter_cons_of_pos (by simpa using hx), List.map_cons, List.foldl_cons]
      simp only [Acc.atomic]
      rw [hx, Function.update_self]
    · rw [List.filter_cons_of_neg (by simpa using hx)]
      simp only [Acc.atomic]
      rw [Function.update_of_ne (Ne.symm hx)]

/-! ## Indices -/

theorem range_blocks (N k : ℕ) :
    ((List.range k).flatMap fun i => (List.range N).map fun t => i * N + t) = List.range (k * N) := by
  induction k with
  | zero => simp
  | succ k ih =>
    rw [List.range_succ (n := k), List.flatMap_append, ih, Nat.succ_mul, List.range_add]
    simp

theorem filter_flatMap {α β : Type} (p : β → Bool) (f : α → List β) (L : List α) :
    (L.flatMap f).filter p = L.flatMap fun x => (f x).filter p := by
  induction L with
  | nil => rfl
  | cons x L ih => rw [List.flatMap_cons, List.filter_append, ih, List.flatMap_cons]

theorem nBlocks_le (n N : ℕ) (hN : 0 < N) : n ≤ nBlocks n N * N := by
  unfold nBlocks
  have h := Nat.div_add_mod (n + N - 1) N
  have h2 := Nat.mod_lt (n + N - 1) hN
  rw [Nat.mul_comm] at h
  generalize (n + N - 1) / N * N = q at *
  omega

theorem filter_range_lt (t s : ℕ) (h : t ≤ s) :
    ((List.range s).filter fun i => decide (i < t)) = List.range t := by
  obtain ⟨d, rfl⟩ := Nat.exists_eq_add_of_le h
  rw [List.range_add, List.filter_append]
  have h1 : ((List.range t).filter fun i => decide (i < t)) = List.range t := by
    rw [List.filter_eq_self]
    intro i hi
    simpa using hi
  have h2 : (((List.range d).map fun x => t + x).filter fun i => decide (i < t)) = [] := by
    rw [List.filter_eq_nil_iff]
    intro i hi
    obtain ⟨x, _, rfl⟩ := List.mem_map.mp hi
    simp
  rw [h1, h2, List.append_nil]

theorem active_all (N total : ℕ) (hN : 0 < N) :
    ((List.range (nBlocks total N)).flatMap fun k => active N total k) = List.range total := by
  unfold active
  rw [← filter_flatMap, range_blocks, filter_range_lt _ _ (nBlocks_le total N hN)]

/-- The inputs of a sample with the batch dimension first. -/
theorem sample_perm (n m b : ℕ) (hb : b < m) :
    ((List.range (n * m)).filter fun tid => decide (tid % m = b)).Perm
      ((List.range n).map fun j => j * m + b) := by
  rw [List.perm_ext_iff_of_nodup (List.nodup_range.filter _)]
  · intro t
    simp only [List.mem_filter, List.mem_range, decide_eq_true_eq, List.mem_map]
    constructor
    · rintro ⟨h1, h2⟩
      refine ⟨t / m, Nat.div_lt_of_lt_mul (by rwa [Nat.mul_comm]), ?_⟩
      have := Nat.div_add_mod t m
      rw [Nat.mul_comm] at this
      omega
    · rintro ⟨j, hj, rfl⟩
      constructor
      · calc j * m + b < j * m + m := by omega
          _ = (j + 1) * m := by ring
          _ ≤ n * m := Nat.mul_le_mul_right m hj
      · rw [Nat.add_comm, Nat.add_mul_mod_self_right]
        exact Nat.mod_eq_of_lt hb
  · apply List.Nodup.map _ List.nodup_range
    intro x y h
    have h' : x * m = y * m := by simpa using h
    exact Nat.eq_of_mul_eq_mul_right (by omega) h'

theorem writers_at (N total m b : ℕ) (hb : b < m) (hm : m ≤ N) :
    ((writers N total m).filter fun p => decide (p.2 = b)) =
      (List.range (nBlocks total N)).map fun k => (k, b) := by
  unfold writers
  rw [filter_flatMap]
  have e : ∀ k : ℕ, ((((List.range N).filter fun t => decide (t < m)).map fun t => (k, t)).filter
      fun p => decide (p.2 = b)) = [(k, b)] := by
    intro k
    rw [filter_range_lt _ _ hm, List.filter_map]
    have : ((fun p : ℕ × ℕ => decide (p.2 = b)) ∘ fun t => (k, t)) = fun t => decide (t = b) := rfl
    rw [this]
    have h : ((List.range m).filter fun t => decide (t = b)) = [b] := by
      have : ((List.range m).filter fun t => decide (t = b)).Perm [b] := by
        rw [List.perm_ext_iff_of_nodup (List.nodup_range.filter _) (List.nodup_singleton b)]
        intro t
        simp only [List.mem_filter, List.mem_range, decide_eq_true_eq, List.mem_singleton]
        exact ⟨fun h => h.2, fun h => ⟨by omega, h⟩⟩
      exact List.perm_singleton.mp this
    rw [h]; rfl
  simp only [e]
  generalize List.range (nBlocks total N) = L
  induction L with
  | nil => rfl
  | cons x L ih => rw [List.flatMap_cons, ih]; rfl

/-! ## The kernels -/

/-- What is taken of the inputs of a sample. -/
def Acc.taken (a : Acc K) (n : ℕ) (x : ℕ → K) : List K := (List.range n).map fun j => a.f (x j)

theorem shared_at (h : a.Laws) (m : ℕ) (input : ℕ → K) (order : List ℕ) (b : ℕ) :
    a.shared m input order b =
      a.total ((order.filter fun tid => decide (tid % m = b)).map fun tid => a.f (input tid)) := by
  unfold Acc.shared
  rw [atomic_at]; rfl

theorem large_at (h : a.Laws) (s : Sched) (n m N : ℕ) (input val : ℕ → K)
    (hs : s.Possible N (n * m) m) (b : ℕ) (hb : b < m) (hv : a.Absorbs (val b)) :
    a.kernelLarge s m input val b = a.op (a.total (a.taken n fun j => input (j * m + b))) (val b) := by
  unfold Acc.kernelLarge
  rw [atomic_at, fold_total h _ _ hv]
  congr 1
  apply total_perm h
  refine (List.Perm.map _ ((hs.2.2.filter _).trans (sample_perm n m b hb))).trans ?_
  rw [List.map_map]; rfl

theorem sharedKernel_at (h : a.Laws) (s : Sched) (n m N : ℕ) (input val : ℕ → K) (hmN : m ≤ N)
    (hs : s.Possible N (n * m) m) (b : ℕ) (hb : b < m) (hv : a.Absorbs (val b)) :
    a.kernelShared s m input val b = a.op (a.total (a.taken n fun j => input (j * m + b))) (val b) := by
  unfold Acc.kernelShared
  have hN : 0 < N := by omega
  rw [atomic_at a (fun p : ℕ × ℕ => p.2) (fun p => a.shared m input (s.block p.1) p.2)]
  have p1 := List.Perm.map (fun p : ℕ × ℕ => a.shared m input (s.block p.1) p.2)
    (hs.2.1.filter fun p => decide (p.2 = b))
  rw [fold_perm h p1, writers_at N (n * m) m b hb hmN, List.map_map]
  have e : ((fun p : ℕ × ℕ => a.shared m input (s.block p.1) p.2) ∘ fun k => (k, b)) =
      a.total ∘ fun k => (((active N (n * m) k).filter fun tid => decide (tid % m = b)).map
        fun tid => a.f (input tid)) := by
    funext k
    show a.shared m input (s.block k) b = _
    rw [shared_at h]
    exact total_perm h (List.Perm.map _ ((hs.1 k).filter _))
  rw [e, ← List.map_map, fold_totals h _ _ hv]
  congr 1
  apply total_perm h
  have e2 : ((List.range (nBlocks (n * m) N)).map fun k =>
      (((active N (n * m) k).filter fun tid => decide (tid % m = b)).map
        fun tid => a.f (input tid))).flatten =
      ((((List.range (nBlocks (n * m) N)).flatMap fun k => active N (n * m) k).filter
        fun tid => decide (tid % m = b)).map fun tid => a.f (input tid)) := by
    rw [filter_flatMap, List.map_flatMap]; rfl
  rw [e2, active_all N _ hN]
  refine (List.Perm.map _ (sample_perm n m b hb)).trans ?_
  rw [List.map_map]; rfl

end Aihw.GpuNm
