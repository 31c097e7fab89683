import Verif.IrDrop.Lemmas3
import Mathlib.Algebra.BigOperators.Intervals

/-!
# Lemmas: padding, columns, pairs
-/
namespace Aihw.IrDrop
open Aihw.Inference

variable {K : Type} [Field K] [LinearOrder K] [IsStrictOrderedRing K] [FloorRing K]

/-- Rows added in front. -/
def padFront (phys n : Nat) : Nat := (phys - n) / 2

/-- A list centred among `phys` entries. -/
def padded {α : Type} (phys n : Nat) (z : α) (l : List α) : List α :=
  List.replicate (padFront phys n) z ++ l ++ List.replicate (phys - n - padFront phys n) z

theorem padded_length {α : Type} (phys n : Nat) (z : α) (l : List α) (hl : l.length = n) (h : n ≤ phys) :
    (padded phys n z l).length = phys := by
  unfold padded padFront
  simp only [List.length_append, List.length_replicate, hl]; omega

theorem padded_get {α : Type} (phys n : Nat) (z : α) (l : List α) (hl : l.length = n) (r : Nat) (hr : r < n) :
    (padded phys n z l).getD (padFront phys n + r) z = l.getD r z := by
  unfold padded
  rw [List.append_assoc, List.getD_append_right _ _ _ _ (by simp), List.length_replicate, Nat.add_sub_cancel_left,
    List.getD_append _ _ _ _ (by omega)]

theorem padded_out {α : Type} (phys n : Nat) (z : α) (l : List α) (hl : l.length = n) (s : Nat)
    (hs : s < padFront phys n ∨ padFront phys n + n ≤ s) : (padded phys n z l).getD s z = z := by
  unfold padded
  rcases hs with h | h
  · rw [List.append_assoc, List.getD_append _ _ _ _ (by simpa using h), List.getD_replicate _ h]
  · rw [List.getD_append_right _ _ _ _ (by simp [hl]; omega)]
    simp only [List.length_append, List.length_replicate, hl]
    by_cases h' : s - (padFront phys n + n) < phys - n - padFront phys n
    · rw [List.getD_replicate _ h']
    · rw [List.getD_eq_default _ _ (by simp; omega)]

theorem padList_ok {α : Type} (a b : Nat) (z : α) (l : List α) :
    padList (a : Int) (b : Int) z l = .ok (List.replicate a z ++ l ++ List.replicate b z) := by
  unfold padList
  rw [if_neg (by omega)]
  simp

theorem padSymmetric_ok (phys n cols : Nat) (h : n ≤ phys) (h1 : phys - n ≠ 1) (x : List K) (w : List (List K))
    : padSymmetric phys n cols x w = .ok (padded phys n 0 x, padded phys n (List.replicate cols 0) w) := by
  unfold padSymmetric half
  have e : ((phys : Int) - n).tdiv 2 = (padFront phys n : Nat) := by
    unfold padFront
    have : (phys : Int) - n = ((phys - n : Nat) : Int) := by omega
    rw [this, Int.tdiv_eq_ediv_of_nonneg (by omega)]
    omega
  simp only [e]
  by_cases h0 : ((padFront phys n : Nat) : Int) = 0
  · have h0' : padFront phys n = 0 := by exact_mod_cast h0
    have h2 : phys - n = 0 := by unfold padFront at h0'; omega
    rw [if_pos h0]
    unfold padded
    rw [h0', h2]
    simp
  · rw [if_neg h0]
    have e2 : (phys : Int) - n - (padFront phys n : Nat) = ((phys - n - padFront phys n : Nat) : Int) := by
      have : padFront phys n ≤ phys - n := by unfold padFront; omega
      omega
    rw [e2, padList_ok]
    simp only [bind, Except.bind]
    rw [padList_ok]
    rfl

omit [FloorRing K] [LinearOrder K] [IsStrictOrderedRing K] in
theorem flatten_get (cols : Nat) : ∀ (w : List (List K)) (r j : Nat), (∀ l ∈ w, l.length = cols) → j < cols → r < w.length →
    w.flatten.getD (r * cols + j) 0 = (w.getD r []).getD j 0 := by
  intro w
  induction w with
  | nil => intro r j _ _ h; simp at h
  | cons l w ih =>
    intro r j hl hj hr
    have hll := hl l (by simp)
    rw [List.flatten_cons]
    cases r with
    | zero => rw [Nat.zero_mul, Nat.zero_add, List.getD_append _ _ _ _ (by omega), List.getD_cons_zero]
    | succ r =>
      have : (r + 1) * cols + j = l.length + (r * cols + j) := by rw [hll]; ring
      rw [this, List.getD_append_right _ _ _ _ (by omega), Nat.add_sub_cancel_left, List.getD_cons_succ]
      exact ih r j (fun l' h' => hl l' (by simp [h'])) hj (by simpa using hr)

omit [FloorRing K] [LinearOrder K] [IsStrictOrderedRing K] in
theorem flatten_len (cols : Nat) : ∀ (w : List (List K)), (∀ l ∈ w, l.length = cols) → w.flatten.length = w.length * cols := by
  intro w
  induction w with
  | nil => intro _; simp
  | cons l w ih =>
    intro hl
    rw [List.flatten_cons, List.length_append, hl l (by simp), ih fun l' h' => hl l' (by simp [h']), List.length_cons]; ring

/-- Position of row `r` in the chain of column `j`. -/
def pos (phys j r : Nat) : Nat := if j % 2 = 0 then r else phys - 1 - r

omit [FloorRing K] [LinearOrder K] [IsStrictOrderedRing K] in
theorem cells_form (x gp gm : List K) (cols j : Nat) :
    cells x gp gm cols j = colRows x.length (fun r => x.getD (pos x.length j r) 0)
      (fun r => gp.getD (pos x.length j r * cols + j) 0) (fun r => gm.getD (pos x.length j r * cols + j) 0) := by
  unfold cells colRows pos
  by_cases h : j % 2 = 0
  · simp only [h, if_true]
  · simp only [h, if_false]
    apply List.ext_getElem
    · simp
    · intro i h1 h2
      simp

theorem pos_lt (phys j r : Nat) (h : r < phys) : pos phys j r < phys := by unfold pos; split_ifs <;> omega

theorem pos_pos (phys j r : Nat) (h : r < phys) : pos phys j (pos phys j r) = r := by unfold pos; split_ifs <;> omega

omit [FloorRing K] [LinearOrder K] [IsStrictOrderedRing K] in
theorem sum_pos_eq (phys j : Nat) (F : Nat → K) : ∑ r ∈ Finset.range phys, F r = ∑ r ∈ Finset.range phys, F (pos phys j r) := by
  unfold pos
  by_cases h : j % 2 = 0
  · simp only [h, if_true]
  · simp only [h, if_false]
    exact (Finset.sum_range_reflect F phys).symm

omit [FloorRing K] [LinearOrder K] [IsStrictOrderedRing K] in
theorem sum_window (phys n P : Nat) (h : P + n ≤ phys) (F : Nat → K) (h0 : ∀ s, s < P ∨ P + n ≤ s → F s = 0) :
    ∑ s ∈ Finset.range phys, F s = ∑ r ∈ Finset.range n, F (P + r) := by
  obtain ⟨Q, rfl⟩ := Nat.exists_eq_add_of_le h
  rw [Finset.sum_range_add, Finset.sum_range_add]
  have z1 : ∑ s ∈ Finset.range P, F s = 0 := Finset.sum_eq_zero fun s hs => h0 s (Or.inl (Finset.mem_range.1 hs))
  have z2 : ∑ s ∈ Finset.range Q, F (P + n + s) = 0 := Finset.sum_eq_zero fun s _ => h0 _ (Or.inr (by omega))
  rw [z1, z2]; ring

omit [IsStrictOrderedRing K] in
theorem pairLoop_form (p : Pars K) (x : List K) (cols j : Nat) (tMax : K) (steps : Nat) : ∀ (fs : List K) (gs : List (List K)) (q : Nat → K),
    gs.length = 2 * fs.length →
    (∀ k, k < fs.length → columnCharge p (cells x (gs.getD (2 * k) []) (gs.getD (2 * k + 1) []) cols j) tMax steps = .ok (q k)) →
    pairLoop p x cols j tMax steps fs gs = .ok (∑ k ∈ Finset.range fs.length, fs.getD k 0 * q k) := by
  intro fs
  induction fs with
  | nil => intro gs q _ _; simp [pairLoop]
  | cons f fs ih =>
    intro gs q hl hq
    match gs, hl with
    | gp :: gm :: gs, hl =>
      have h0 := hq 0 (by simp)
      simp only [Nat.mul_zero, Nat.zero_add, List.getD_cons_zero, List.getD_cons_succ] at h0
      have h1 := ih gs (fun k => q (k + 1)) (by simp at hl; omega) (fun k hk => by
        have := hq (k + 1) (by simpa using hk)
        have e1 : 2 * (k + 1) = 2 * k + 1 + 1 := by ring
        have e2 : 2 * (k + 1) + 1 = 2 * k + 1 + 1 + 1 := by ring
        rw [e2, e1] at this
        simpa only [List.getD_cons_succ] using this)
      rw [pairLoop, h0]
      simp only [bind, Except.bind]
      rw [h1]
      simp only
      rw [List.length_cons, Finset.sum_range_succ']
      simp only [List.getD_cons_zero, List.getD_cons_succ]
      rw [add_comm]
    | [], hl => simp at hl
    | [_], hl => simp at hl; omega

end Aihw.IrDrop
