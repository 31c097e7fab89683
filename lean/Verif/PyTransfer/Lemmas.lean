import Verif.PyTransfer.Model
import Mathlib.Data.List.GetD

/-!
# Lemmas about the python transfer tile
-/
namespace Aihw.PyTransfer

open Aihw.Pulsed (trunc0)

variable {G W Ω : Type}

/-- The shape of a step. -/
theorem update_shape (o : Ops G W Ω) (c : Cfg) (s : St G W Ω) (u : Upd Ω) :
    (c.update o s u).1 = s ∨ (c.update o s u).1 = c.grad o s u ∨
    (c.xSize ≤ c.nextIdx s ∧
      (c.update o s u).1 = { c.grad o s u with idx := c.nextIdx (c.grad o s u) }) ∨
    ∃ l, c.lrH (c.te u.x.length) u.lr (c.lrA s u).1 = .ok l ∧ c.nextIdx s < c.xSize ∧
      (c.update o s u).1 = c.transfer o (c.grad o s u) u l := by
  unfold Cfg.update
  by_cases hr : c.rejects u = true
  · rw [if_pos hr]; exact Or.inl rfl
  rw [if_neg hr]
  right
  simp only
  unfold Cfg.body
  simp only
  by_cases h0 : c.te u.x.length = 0
  · rw [if_pos h0]; exact Or.inl rfl
  rw [if_neg h0]
  by_cases h1 : s.uc % c.te u.x.length + u.x.length < c.te u.x.length
  · rw [if_pos h1]; exact Or.inl rfl
  rw [if_neg h1]
  by_cases h2 : 2 * c.te u.x.length ≤ s.uc % c.te u.x.length + u.x.length
  · rw [if_pos h2]; exact Or.inl rfl
  rw [if_neg h2]
  unfold Cfg.tryTransfer
  cases hl : c.lrH (c.te u.x.length) u.lr (c.lrA s u).1 with
  | error e => exact Or.inl rfl
  | ok l =>
    simp only
    right
    by_cases hk : c.nextIdx (c.grad o s u) < c.xSize
    · rw [if_pos hk]; exact Or.inr ⟨l, rfl, hk, rfl⟩
    · rw [if_neg hk]; exact Or.inl ⟨not_lt.1 hk, rfl⟩

/-- Induction over a history. -/
theorem run_inv (o : Ops G W Ω) (c : Cfg) (Inv : St G W Ω → Prop) (us : List (Upd Ω))
    (hg : ∀ u ∈ us, ∀ s, Inv s → Inv (c.grad o s u))
    (hi : ∀ s k, Inv s → Inv { s with idx := k })
    (ht : ∀ u ∈ us, ∀ s l, c.nextIdx s < c.xSize → Inv s → Inv (c.transfer o s u l))
    (s : St G W Ω) (h : Inv s) : Inv (c.run o s us) := by
  induction us generalizing s with
  | nil => exact h
  | cons u us ih =>
    refine ih (fun v hv => hg v (List.mem_cons_of_mem _ hv)) (fun v hv => ht v (List.mem_cons_of_mem _ hv)) _ ?_
    have hg' := hg u (List.mem_cons_self ..) s h
    beta_reduce
    rcases update_shape o c s u with e | e | ⟨-, e⟩ | ⟨l, -, hk, e⟩
    · rw [e]; exact h
    · rw [e]; exact hg'
    · rw [e]; exact hi _ _ hg'
    · rw [e]; exact ht u (List.mem_cons_self ..) _ l hk hg'

theorem run_append (o : Ops G W Ω) (c : Cfg) (s : St G W Ω) (us vs : List (Upd Ω)) :
    c.run o s (us ++ vs) = c.run o (c.run o s us) vs := by
  unfold Cfg.run; rw [List.foldl_append]

/-- The record of a transfer. -/
def rdOf (o : Ops G W Ω) (c : Cfg) (s : St G W Ω) (u : Upd Ω) (l : ℚ) : Rd Ω :=
  ⟨c.nextIdx s, l, s.chop (c.nextIdx s), o.gRead (c.nextIdx s) u.ωr s.g, c.refOf s (c.nextIdx s),
    fun i => trunc0 (c.acc o s u l (c.nextIdx s) i), c.switch s u (c.nextIdx s), u.ωw⟩

theorem transfer_reads (o : Ops G W Ω) (c : Cfg) (s : St G W Ω) (u : Upd Ω) (l : ℚ) :
    (c.transfer o s u l).reads = s.reads ++ [rdOf o c s u l] := rfl

theorem setRow_same (a : Nat → Nat → ℚ) (k : Nat) (v : Nat → ℚ) (i : Nat) : setRow a k v k i = v i := by
  simp [setRow]

theorem setRow_ne (a : Nat → Nat → ℚ) {k k' : Nat} (h : k' ≠ k) (v : Nat → ℚ) (i : Nat) :
    setRow a k v k' i = a k' i := by
  simp [setRow, h]

theorem trunc0_spec (x : ℚ) : |(trunc0 x : ℚ)| ≤ |x| ∧ |x| < |(trunc0 x : ℚ)| + 1 ∧
    0 ≤ (trunc0 x : ℚ) * x := by
  unfold trunc0
  by_cases h : 0 ≤ x
  · rw [if_pos h]
    have h0 : (0 : ℚ) ≤ (⌊x⌋ : ℚ) := by exact_mod_cast Int.floor_nonneg.2 h
    rw [abs_of_nonneg h, abs_of_nonneg h0]
    exact ⟨Int.floor_le x, Int.lt_floor_add_one x, mul_nonneg h0 h⟩
  · rw [if_neg h]
    rw [not_le] at h
    have h0 : (⌈x⌉ : ℚ) ≤ 0 := by
      have : ⌈x⌉ ≤ 0 := Int.ceil_le.2 (by simpa using h.le)
      exact_mod_cast this
    rw [abs_of_neg h, abs_of_nonpos h0]
    refine ⟨by have := Int.le_ceil x; linarith, by have := Int.ceil_lt_add_one x; linarith, ?_⟩
    exact mul_nonneg_of_nonpos_of_nonpos h0 h.le

theorem trunc0_eq_zero (x : ℚ) : trunc0 x = 0 ↔ |x| < 1 := by
  constructor
  · intro h
    have := (trunc0_spec x).2.1
    rw [h] at this; simpa using this
  · exact Aihw.Pulsed.trunc0_zero_of_lt

end Aihw.PyTransfer
