import Verif.Common
import Mathlib.Data.List.Basic
import Mathlib.Tactic.Ring

/-!
# C91: the row pointers of a C++ tile

A C++ tile reaches its weights in two ways: flat from the first element (`weights_[0]`: matrix products, reading and
setting the weights: rpu.cpp:1308-1314, 1454-1457) and by rows (`weights_[i]`: the pulsed devices, e.g.
rpu_constantstep_device.cpp `doSparseUpdate`).  Model of the pointers on a flat memory; addresses count elements.
Simplifications: one tile; what is read from memory nobody owns is whatever the memory function says there.
-/

namespace Aihw.Shared.Rows

open Aihw

variable {K : Type}

/-- The pointers of a tile: sizes, `weights_[i]`, `shared_weights_if_`; `delta_weights_extern_[i]`, with `none` for the
null pointer at position 0. -/
structure Ptrs where
  d : ℕ
  x : ℕ
  row : ℕ → ℕ
  shared : Bool
  dw : Option ℕ
  dwRow : ℕ → ℕ

/-- `Array_2D_Get` (utility_functions.h:212-219): one array, row pointers into it. -/
def array2D (x base : ℕ) : ℕ → ℕ := fun i => base + x * i

/-- A new tile whose array is at `base` (rpu.cpp `initialize`). -/
def fresh (d x base : ℕ) : Ptrs := ⟨d, x, array2D x base, false, none, fun _ => 0⟩

/-- `memcpy` of `n` elements. -/
def memcpy (m : ℕ → K) (dst src n : ℕ) : ℕ → K := fun a => if dst ≤ a ∧ a < dst + n then m (src + (a - dst)) else m a

/-- The condition of rpu.cpp:1391-1392 after `weights_[0]` has been set. -/
def stale (t : Ptrs) : Bool := 0 < t.d && t.row (t.d - 1) != t.row 0 + t.x * t.d

/-- `setSharedWeights` (rpu.cpp:1384-1398). -/
def setShared (t : Ptrs) (m : ℕ → K) (p : ℕ) : Ptrs × (ℕ → K) :=
  let m := if t.shared then m else memcpy m p (t.row 0) (t.x * t.d)
  let t := { t with row := fun i => if i = 0 then p else t.row i, shared := true }
  if stale t then ({ t with row := fun i => if i < t.d then t.row 0 + t.x * i else t.row i }, m) else (t, m)

/-- `setDeltaWeights` (rpu.cpp:1459-1481). -/
def setDelta (t : Ptrs) : Option ℕ → Ptrs
  | some p =>
    if t.dw = some p then t
    else { t with dw := some p, dwRow := fun i => if i < t.d then p + t.x * i else t.dwRow i }
  | none => { t with dw := none }

/-- The weight `(i, j)` as the devices see it. -/
def byRow (t : Ptrs) (m : ℕ → K) (i j : ℕ) : K := m (t.row i + j)

/-- The weight `(i, j)` as the matrix products and `get_weights` see it. -/
def flat (t : Ptrs) (m : ℕ → K) (i j : ℕ) : K := m (t.row 0 + (t.x * i + j))

/-- Entry `(i, j)` of a contiguous tensor at `p` with `x` columns. -/
def tensor (m : ℕ → K) (x p i j : ℕ) : K := m (p + (x * i + j))

/-- Where the devices write in an update: `getUpWeights` (rpu.cpp:1489-1507, no delayed update). -/
def upRow (t : Ptrs) (i : ℕ) : ℕ := if t.dw.isSome then t.dwRow i else t.row i

/-- A program: tensors are handed over, and gradient memories set and reset. -/
inductive Op where
  | share (p : ℕ)
  | delta (p : Option ℕ)

/-- One call. -/
def step (s : Ptrs × (ℕ → K)) : Op → Ptrs × (ℕ → K)
  | .share p => setShared s.1 s.2 p
  | .delta p => (setDelta s.1 p, s.2)

/-! ### Properties -/

/-- Two `n` element memories are the same or have no element in common. -/
def SameOrApart (n p q : ℕ) : Prop := p = q ∨ p + n ≤ q ∨ q + n ≤ p

/-- In a program each tensor handed over is the previous memory or has no element in common with it. -/
def Separate (n : ℕ) : ℕ → List Op → Prop
  | _, [] => True
  | b, .share p :: os => SameOrApart n b p ∧ Separate n p os
  | b, .delta _ :: os => Separate n b os

/-- The memory in use after a program that started with the memory at `b`. -/
def lastShared : ℕ → List Op → ℕ
  | b, [] => b
  | _, .share p :: os => lastShared p os
  | b, .delta _ :: os => lastShared b os

/-- The gradient memory after a program. -/
def lastDelta : Option ℕ → List Op → Option ℕ
  | g, [] => g
  | g, .share _ :: os => lastDelta g os
  | _, .delta p :: os => lastDelta p os

/-- The rows of the tile are those of the tensor at `b`. -/
def Rows (t : Ptrs) (b : ℕ) : Prop := ∀ i, i < t.d → t.row i = b + t.x * i

/-- The row pointers after a tensor at `p` has been handed to a tile whose rows were those of a memory at `b`: they are
the rows of the tensor, unless the tensor starts exactly one row before the previous memory. -/
theorem setShared_rows (t : Ptrs) (m : ℕ → K) (b p : ℕ) (h : Rows t b) :
    (setShared t m p).1.d = t.d ∧ (setShared t m p).1.x = t.x ∧ (0 < t.d → (setShared t m p).1.row 0 = p) ∧
    (t.d ≤ 1 ∨ t.x = 0 ∨ b ≠ p + t.x → Rows (setShared t m p).1 p) ∧
    (2 ≤ t.d → b = p + t.x → ∀ i, 1 ≤ i → i < t.d → (setShared t m p).1.row i = p + t.x * (i + 1)) := by
  by_cases c : stale { t with row := fun i => if i = 0 then p else t.row i, shared := true } = true
  · have e : (setShared t m p).1 = { t with
        row := fun i => if i < t.d then p + t.x * i else (if i = 0 then p else t.row i), shared := true } := by
      simp only [setShared]
      rw [if_pos c]
      simp
    rw [e]
    refine ⟨rfl, rfl, fun hd => by simp [hd], fun _ i hi => ?_, ?_⟩
    · have hi' : i < t.d := hi
      simp [hi']
    · intro hd hb
      exfalso
      simp only [stale, Bool.and_eq_true, decide_eq_true_eq, bne_iff_ne, ne_eq] at c
      apply c.2
      have hd1 : t.d - 1 ≠ 0 := by omega
      simp only [hd1, if_false, if_true]
      rw [h _ (by omega), hb]
      obtain ⟨k, hk⟩ : ∃ k, t.d = k + 1 := ⟨t.d - 1, by omega⟩
      rw [hk]
      simp only [Nat.add_sub_cancel]
      ring
  · have e : (setShared t m p).1 = { t with row := fun i => if i = 0 then p else t.row i, shared := true } := by
      simp only [setShared]
      rw [if_neg c]
    rw [e]
    simp only [stale, Bool.and_eq_true, decide_eq_true_eq, bne_iff_ne, ne_eq, not_and, not_not] at c
    refine ⟨rfl, rfl, fun _ => rfl, fun hq i hi => ?_, ?_⟩
    · have hi' : i < t.d := hi
      show (if i = 0 then p else t.row i) = p + t.x * i
      by_cases i0 : i = 0
      · simp [i0]
      · have hd1 : t.d - 1 ≠ 0 := by omega
        have := c (by omega)
        simp only [hd1, if_false, if_true] at this
        rw [h _ (by omega)] at this
        obtain ⟨k, hk⟩ : ∃ k, t.d = k + 1 := ⟨t.d - 1, by omega⟩
        rw [hk] at this
        simp only [Nat.add_sub_cancel] at this
        have hb : b = p + t.x := by
          have : b + t.x * k = p + t.x + t.x * k := by rw [this]; ring
          omega
        rcases hq with hq | hq | hq
        · omega
        · rw [if_neg i0, h i hi', hb, hq]
          simp
        · exact absurd hb hq
    · intro hd hb i h1 h2
      have i0 : i ≠ 0 := by omega
      show (if i = 0 then p else t.row i) = _
      rw [if_neg i0, h i h2, hb]
      ring

/-- What handing over a tensor does to its memory. -/
theorem setShared_mem (t : Ptrs) (m : ℕ → K) (p : ℕ) :
    (setShared t m p).2 = if t.shared then m else memcpy m p (t.row 0) (t.x * t.d) := by
  simp only [setShared]
  split <;> rfl

theorem setShared_dw (t : Ptrs) (m : ℕ → K) (p : ℕ) :
    (setShared t m p).1.dw = t.dw ∧ (setShared t m p).1.dwRow = t.dwRow ∧ (setShared t m p).1.shared = true := by
  simp only [setShared]
  split <;> exact ⟨rfl, rfl, rfl⟩

theorem setDelta_same (t : Ptrs) (g : Option ℕ) : (setDelta t g).d = t.d ∧ (setDelta t g).x = t.x ∧
    (setDelta t g).row = t.row ∧ (setDelta t g).shared = t.shared ∧ (setDelta t g).dw = g := by
  cases g with
  | none => exact ⟨rfl, rfl, rfl, rfl, rfl⟩
  | some p =>
    simp only [setDelta]
    split
    · rename_i e; exact ⟨rfl, rfl, rfl, rfl, e⟩
    · exact ⟨rfl, rfl, rfl, rfl, rfl⟩

/-- The rows of the gradient memory. -/
def DRows (t : Ptrs) : Prop := ∀ p, t.dw = some p → ∀ i, i < t.d → t.dwRow i = p + t.x * i

theorem setDelta_rows (t : Ptrs) (g : Option ℕ) (h : DRows t) : DRows (setDelta t g) := by
  cases g with
  | none => intro p e; cases e
  | some q =>
    simp only [setDelta]
    by_cases c : t.dw = some q
    · rw [if_pos c]; exact h
    · rw [if_neg c]
      intro p e i hi
      injection e with e
      subst e
      have hi' : i < t.d := hi
      simp [hi']

/-- **C91 (handing over a tensor).** A tensor handed to a tile for the first time receives the weights of the tile; a
tensor handed over later keeps its content, which becomes the weights of the tile.  (The tensor is memory of its own,
not part of the array of the tile.) -/
theorem C91_handover (t : Ptrs) (m : ℕ → K) (b p : ℕ) (h : Rows t b)
    (apart : t.shared = false → SameOrApart (t.x * t.d) b p) (i j : ℕ) (hi : i < t.d) (hj : j < t.x) :
    (t.shared = false → tensor (setShared t m p).2 t.x p i j = flat t m i j) ∧
    (t.shared = true → ∀ a, (setShared t m p).2 a = m a) ∧
    flat (setShared t m p).1 (setShared t m p).2 i j = tensor (setShared t m p).2 t.x p i j := by
  obtain ⟨h1, h2, h3, -⟩ := setShared_rows t m b p h
  rw [setShared_mem]
  have hlt : t.x * i + j < t.x * t.d := by
    have := Nat.mul_le_mul_left t.x (show i + 1 ≤ t.d by omega)
    rw [Nat.mul_add, Nat.mul_one] at this
    omega
  refine ⟨fun hs => ?_, fun hs => by rw [hs]; simp, ?_⟩
  · rw [hs]
    simp only [Bool.false_eq_true, if_false, tensor, flat, memcpy]
    rw [if_pos ⟨by omega, by omega⟩]
    congr 1
    omega
  · unfold flat tensor
    rw [h3 (by omega), h2]

theorem step_rows (n : ℕ) (s : Ptrs × (ℕ → K)) (b : ℕ) (o : Op) (h : Rows s.1 b) (hd : DRows s.1) (hn : n = s.1.x * s.1.d)
    (sep : Separate n b [o]) :
    Rows (step s o).1 (lastShared b [o]) ∧ DRows (step s o).1 ∧ (step s o).1.x = s.1.x ∧ (step s o).1.d = s.1.d ∧
      (step s o).1.dw = lastDelta s.1.dw [o] := by
  cases o with
  | share p =>
    obtain ⟨h1, h2, h3, h4, -⟩ := setShared_rows s.1 s.2 b p h
    obtain ⟨e1, e2, e3⟩ := setShared_dw s.1 s.2 p
    refine ⟨h4 ?_, ?_, h2, h1, e1⟩
    · by_cases hb : b = p + s.1.x
      · by_cases hx : s.1.x = 0
        · exact Or.inr (Or.inl hx)
        · left
          by_contra hd2
          have : 2 * s.1.x ≤ s.1.x * s.1.d := by
            rw [Nat.mul_comm]; exact Nat.mul_le_mul_left _ (by omega)
          rcases sep.1 with q | q | q
          · omega
          · rw [hn] at q; omega
          · rw [hn] at q; omega
      · exact Or.inr (Or.inr hb)
    · intro q e i hi
      show (setShared s.1 s.2 p).1.dwRow i = q + (setShared s.1 s.2 p).1.x * i
      rw [e2, h2]
      refine hd q ?_ i ?_
      · rw [← e1]; exact e
      · rw [← h1]; exact hi
  | delta g =>
    obtain ⟨h1, h2, h3, h4, h5⟩ := setDelta_same s.1 g
    refine ⟨?_, setDelta_rows s.1 g hd, h2, h1, h5⟩
    intro i hi
    show (setDelta s.1 g).row i = b + (setDelta s.1 g).x * i
    rw [h3, h2]
    refine h i ?_
    rw [← h1]; exact hi

theorem run_rows (n : ℕ) (ops : List Op) : ∀ (s : Ptrs × (ℕ → K)) (b : ℕ), Rows s.1 b → DRows s.1 →
    n = s.1.x * s.1.d → Separate n b ops →
    Rows (ops.foldl step s).1 (lastShared b ops) ∧ DRows (ops.foldl step s).1 ∧ (ops.foldl step s).1.x = s.1.x ∧
      (ops.foldl step s).1.d = s.1.d ∧ (ops.foldl step s).1.dw = lastDelta s.1.dw ops := by
  induction ops with
  | nil => intro s b h hd _ _; exact ⟨h, hd, rfl, rfl, rfl⟩
  | cons o ops ih =>
    intro s b h hd hn sep
    have sep1 : Separate n b [o] := by
      cases o with
      | share p => exact ⟨sep.1, trivial⟩
      | delta g => trivial
    obtain ⟨a1, a2, a3, a4, a5⟩ := step_rows n s b o h hd hn sep1
    have sep2 : Separate n (lastShared b [o]) ops := by
      cases o with
      | share p => exact sep.2
      | delta g => exact sep
    obtain ⟨b1, b2, b3, b4, b5⟩ := ih (step s o) (lastShared b [o]) a1 a2 (by rw [a3, a4]; exact hn) sep2
    refine ⟨?_, b2, b3.trans a3, b4.trans a4, ?_⟩
    · cases o <;> exact b1
    · rw [List.foldl_cons, b5, a5]
      cases o <;> rfl

/-- **C91 (one matrix).** After any sequence of tensors handed over and gradient memories set or reset, where each
tensor is the previous one or has no element in common with it: the devices (by rows), the matrix products and
`get_weights` (flat) and Python (the tensor last handed over) see the same weight at every position; and an update
writes to the rows of the gradient memory if one is set, else to those of the weights. -/
theorem C91_rows (d x base : ℕ) (m : ℕ → K) (ops : List Op) (sep : Separate (x * d) base ops) (t : Ptrs) (m' : ℕ → K)
    (hr : ops.foldl step (fresh d x base, m) = (t, m')) (i j : ℕ) (hi : i < d) :
    byRow t m' i j = tensor m' x (lastShared base ops) i j ∧ flat t m' i j = tensor m' x (lastShared base ops) i j ∧
    upRow t i = (lastDelta none ops).getD (lastShared base ops) + x * i := by
  obtain ⟨a1, a2, a3, a4, a5⟩ := run_rows (x * d) ops (fresh d x base, m) base (fun i _ => rfl)
    (fun p e => by cases e) rfl sep
  rw [hr] at a1 a2 a3 a4 a5
  have ax : t.x = x := a3
  have ad : t.d = d := a4
  have r0 := a1 0 (by show 0 < t.d; omega)
  have ri := a1 i (by show i < t.d; omega)
  refine ⟨?_, ?_, ?_⟩
  · unfold byRow tensor
    rw [ri, ax, Nat.add_assoc]
  · unfold flat tensor
    rw [r0, ax]
    simp
  · unfold upRow
    have a5' : t.dw = lastDelta none ops := a5
    rw [a5']
    cases e : lastDelta none ops with
    | none =>
      simp only [Option.isSome_none, Bool.false_eq_true, if_false, Option.getD_none]
      rw [ri, ax]
    | some g =>
      simp only [Option.isSome_some, if_true, Option.getD_some]
      rw [a2 g (by rw [a5', e]) i (by show i < t.d; omega), ax]

/-- **C91 (the exception).** If a tensor handed over starts exactly one row before the previous memory - two views of one
larger tensor - the devices see, from the second row on, the row after the one Python and the matrix products see; the
last row is outside of the tensor. -/
theorem C91_one_row_before (d x base p : ℕ) (m : ℕ → K) (hd : 2 ≤ d) (t : Ptrs) (m' : ℕ → K)
    (hr : [Op.share (p + x), Op.share p].foldl step (fresh d x base, m) = (t, m'))
    (sep : SameOrApart (x * d) base (p + x)) (i j : ℕ) (hi : i < d) :
    flat t m' i j = tensor m' x p i j ∧
    byRow t m' i j = tensor m' x p (if i = 0 then 0 else i + 1) j ∧
    (i = d - 1 → ∀ k, k < x → p + x * d ≤ t.row i + k) := by
  obtain ⟨a1, -, a3, a4, -⟩ := run_rows (x * d) [Op.share (p + x)] (fresh d x base, m) base (fun i _ => rfl)
    (fun p e => by cases e) rfl ⟨sep, trivial⟩
  have e : (t, m') = setShared ([Op.share (p + x)].foldl step (fresh d x base, m)).1
      ([Op.share (p + x)].foldl step (fresh d x base, m)).2 p := hr.symm
  generalize hs : [Op.share (p + x)].foldl step (fresh d x base, m) = s at a1 a3 a4 e
  have ax : s.1.x = x := a3
  have ad : s.1.d = d := a4
  obtain ⟨h1, h2, h3, -, h5⟩ := setShared_rows s.1 s.2 (p + x) p a1
  have et : t = (setShared s.1 s.2 p).1 := congrArg Prod.fst e
  rw [← et] at h1 h2 h3 h5
  have hr0 := h3 (by omega)
  refine ⟨?_, ?_, ?_⟩
  · unfold flat tensor
    rw [hr0, h2, ax]
  · unfold byRow tensor
    by_cases i0 : i = 0
    · simp [i0, hr0]
    · rw [if_neg i0, h5 (by omega) (by rw [ax]) i (by omega) (by omega), ax, Nat.add_assoc]
  · intro il k _
    rw [h5 (by omega) (by rw [ax]) i (by omega) (by omega), ax, il]
    rw [show d - 1 + 1 = d by omega]
    omega

end Aihw.Shared.Rows
