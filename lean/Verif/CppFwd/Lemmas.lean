import Verif.CppFwd.Model
import Mathlib.Tactic.Linarith
import Mathlib.Tactic.Ring
import Mathlib.Tactic.FieldSimp
import Mathlib.Tactic.Positivity
import Mathlib.Algebra.BigOperators.Ring.Finset
import Mathlib.Algebra.Order.BigOperators.Ring.Finset

/-!
# Lemmas on the C++ passes
-/
open scoped BigOperators

namespace Aihw.CppFwd

variable {K : Type} [Field K] [LinearOrder K] [IsStrictOrderedRing K] [FloorRing K]

set_option linter.unusedSectionVars false

/-! ## Maxima -/

theorem foldl_max_spec (l : List Nat) (f : Nat → K) (a : K) :
    a ≤ l.foldl (fun m i => max m (f i)) a ∧ (∀ i ∈ l, f i ≤ l.foldl (fun m i => max m (f i)) a) ∧
    (l.foldl (fun m i => max m (f i)) a = a ∨ ∃ i ∈ l, l.foldl (fun m i => max m (f i)) a = f i) := by
  induction l generalizing a with
  | nil => exact ⟨le_refl _, (fun _ h => nomatch h), Or.inl rfl⟩
  | cons j l ih =>
    obtain ⟨h1, h2, h3⟩ := ih (max a (f j))
    rw [List.foldl_cons]
    refine ⟨le_trans (le_max_left _ _) h1, ?_, ?_⟩
    · intro i hi
      rcases List.mem_cons.1 hi with rfl | hi
      · exact le_trans (le_max_right _ _) h1
      · exact h2 i hi
    · rcases h3 with h3 | ⟨i, hi, h3⟩
      · rcases max_choice a (f j) with h | h
        · left; rw [h3, h]
        · right; exact ⟨j, List.mem_cons_self .., by rw [h3, h]⟩
      · right; exact ⟨i, List.mem_cons_of_mem _ hi, h3⟩

theorem amax_spec (n : Nat) (x : Nat → K) : 0 ≤ amax n x ∧ (∀ i < n, |x i| ≤ amax n x) ∧
    (amax n x = 0 ∨ ∃ i < n, amax n x = |x i|) := by
  obtain ⟨h1, h2, h3⟩ := foldl_max_spec (List.range n) (fun i => |x i|) 0
  refine ⟨h1, fun i hi => h2 i (List.mem_range.2 hi), ?_⟩
  rcases h3 with h | ⟨i, hi, h⟩
  · exact Or.inl h
  · exact Or.inr ⟨i, List.mem_range.1 hi, h⟩

theorem amax_unique {n : Nat} {x : Nat → K} {a : K} (h0 : 0 ≤ a) (h1 : ∀ i < n, |x i| ≤ a)
    (h2 : a = 0 ∨ ∃ i < n, a = |x i|) : amax n x = a := by
  obtain ⟨g0, g1, g2⟩ := amax_spec n x
  apply le_antisymm
  · rcases g2 with h | ⟨i, hi, h⟩
    · rw [h]; exact h0
    · rw [h]; exact h1 i hi
  · rcases h2 with h | ⟨i, hi, h⟩
    · rw [h]; exact g0
    · rw [h]; exact g1 i hi

theorem amax_smul (n : Nat) (x : Nat → K) {c : K} (hc : 0 ≤ c) :
    amax n (fun j => c * x j) = c * amax n x := by
  obtain ⟨g0, g1, g2⟩ := amax_spec n x
  apply amax_unique (mul_nonneg hc g0)
  · intro i hi
    rw [abs_mul, abs_of_nonneg hc]
    exact mul_le_mul_of_nonneg_left (g1 i hi) hc
  · rcases g2 with h | ⟨i, hi, h⟩
    · left; rw [h, mul_zero]
    · right; exact ⟨i, hi, by rw [h, abs_mul, abs_of_nonneg hc]⟩

theorem amax_pos {n : Nat} {x : Nat → K} {j : Nat} (hj : j < n) (hx : x j ≠ 0) : 0 < amax n x :=
  lt_of_lt_of_le (abs_pos.2 hx) ((amax_spec n x).2.1 j hj)

theorem vmax_eq (n : Nat) (x : Nat → K) :
    vmax n x = (List.range n).foldl (fun m i => max m (x i)) (x 0) := by
  unfold vmax
  congr 1
  funext m i
  rw [max_def]
  split_ifs with h1 h2 h2
  · rfl
  · exact absurd h1.le h2
  · exact le_antisymm (le_of_not_gt h1) h2 ▸ rfl
  · rfl

theorem vmax_spec {n : Nat} (hn : 0 < n) (x : Nat → K) :
    (∀ i < n, x i ≤ vmax n x) ∧ ∃ i < n, vmax n x = x i := by
  rw [vmax_eq]
  obtain ⟨-, h2, h3⟩ := foldl_max_spec (List.range n) x (x 0)
  refine ⟨fun i hi => h2 i (List.mem_range.2 hi), ?_⟩
  rcases h3 with h | ⟨i, hi, h⟩
  · exact ⟨0, hn, h⟩
  · exact ⟨i, List.mem_range.1 hi, h⟩

/-! ## Products -/

theorem mv_smul (n : Nat) (m : Nat → Nat → K) (c : K) (x : Nat → K) (i : Nat) :
    mv n m (fun j => x j * c) i = mv n m x i * c := by
  unfold mv
  rw [Finset.sum_mul]
  exact Finset.sum_congr rfl fun j _ => by ring

theorem mv_add (n : Nat) (m : Nat → Nat → K) (x y : Nat → K) (i : Nat) :
    mv n m (fun j => x j + y j) i = mv n m x i + mv n m y i := by
  unfold mv
  rw [← Finset.sum_add_distrib]
  exact Finset.sum_congr rfl fun j _ => by ring

theorem mv_congr {n : Nat} {m m' : Nat → Nat → K} {x y : Nat → K} {i : Nat}
    (hm : ∀ j < n, m i j = m' i j) (h : ∀ j < n, x j = y j) : mv n m x i = mv n m' y i :=
  Finset.sum_congr rfl fun j hj => by
    rw [h j (Finset.mem_range.1 hj), hm j (Finset.mem_range.1 hj)]

theorem pos_add_neg (v : K) : (if 0 < v then v else 0) + (if v < 0 then v else 0) = v := by
  rcases lt_trichotomy v 0 with h | h | h
  · rw [if_neg (not_lt.2 h.le), if_pos h, zero_add]
  · simp [h]
  · rw [if_pos h, if_neg (not_lt.2 h.le), add_zero]

/-! ## Clipping -/

theorem clipB_of_le {b : Option K} {v : K} (h : ∀ c, b = some c → |v| ≤ c) : clipB b v = v := by
  cases b with
  | none => rfl
  | some c =>
    have := abs_le.1 (h c rfl)
    unfold clipB
    simp only
    rw [if_neg (not_lt.2 this.2), if_neg (not_lt.2 this.1)]

theorem abs_clipB_le {c : K} (hc : 0 ≤ c) (v : K) : |clipB (some c) v| ≤ c := by
  unfold clipB
  simp only
  rw [abs_le]
  by_cases h : c < v
  · rw [if_pos h, if_neg (not_lt.2 (by linarith))]; exact ⟨by linarith, le_refl _⟩
  · rw [if_neg h]
    by_cases h' : v < -c
    · rw [if_pos h']; exact ⟨le_refl _, by linarith⟩
    · rw [if_neg h']; exact ⟨le_of_not_gt h', le_of_not_gt h⟩

theorem clipB_eq_clamp {c : K} (hc : 0 ≤ c) (v : K) : clipB (some c) v = max (-c) (min v c) := by
  unfold clipB
  simp only
  by_cases h : c < v
  · rw [if_pos h, if_neg (not_lt.2 (by linarith)), min_eq_right h.le, max_eq_right (by linarith)]
  · rw [if_neg h, min_eq_left (le_of_not_gt h)]
    by_cases h' : v < -c
    · rw [if_pos h', max_eq_left h'.le]
    · rw [if_neg h', max_eq_right (le_of_not_gt h')]

/-! ## Bound test -/

theorem testFold_true (b : Option K) (l : List Nat) (v : Nat → K) (acc : Bool) :
    l.foldl (fun t i => if above b (v i) then false else if below b (v i) then !true else t) acc = true
      ↔ acc = true ∧ ∀ i ∈ l, ∀ c, b = some c → |v i| ≤ c := by
  induction l generalizing acc with
  | nil => simp
  | cons j l ih =>
    rw [List.foldl_cons, ih]
    have key : ((if above b (v j) then false else if below b (v j) then !true else acc) = true) ↔
        acc = true ∧ ∀ c, b = some c → |v j| ≤ c := by
      cases b with
      | none => simp [above, below]
      | some c =>
        simp only [above, below, Option.some.injEq, forall_eq']
        by_cases h1 : c < v j
        · simp only [h1, decide_true, if_true, Bool.false_eq_true, false_iff, not_and, abs_le]
          intro _ _ h; exact absurd h1 (not_lt.2 h)
        · by_cases h2 : v j < -c
          · simp only [h1, h2, decide_true, decide_false, Bool.false_eq_true, if_false, if_true,
              Bool.not_true, false_iff, not_and, abs_le]
            intro _ h _; exact absurd h2 (not_lt.2 h)
          · simp only [h1, h2, decide_false, Bool.false_eq_true, if_false]
            exact ⟨fun h => ⟨h, abs_le.2 ⟨le_of_not_gt h2, le_of_not_gt h1⟩⟩, fun h => h.1⟩
    rw [key]
    constructor
    · rintro ⟨⟨h1, h2⟩, h3⟩
      refine ⟨h1, fun i hi => ?_⟩
      rcases List.mem_cons.1 hi with rfl | hi
      · exact h2
      · exact h3 i hi
    · rintro ⟨h1, h2⟩
      exact ⟨⟨h1, h2 j (List.mem_cons_self ..)⟩, fun i hi => h2 i (List.mem_cons_of_mem _ hi)⟩

theorem boundTest_iff {io : IO K} (hb : io.bm ≠ .none) (ht : io.bmTestNeg = true) (m : Nat)
    (v : Nat → K) : io.boundTest m v = true ↔ ∀ i < m, ∀ c, io.outBound = some c → |v i| ≤ c := by
  unfold IO.boundTest
  rw [if_neg hb, ht, testFold_true]
  simp

/-! ## The rounds -/

/-- The worst-case mode changes the noise management value after the first round. -/
def IO.switches (io : IO K) : Prop := io.bm = .worstCase ∧ io.nm ≠ .absMaxNPSum

/-- State before round `k`. -/
def IO.stAt (io : IO K) (n : Nat) (x : Nat → K) (v : K) : Nat → LoopSt K
  | 0 => ⟨0, v, 1 / 2⟩
  | k + 1 => io.nextRound n x (io.stAt n x v k)

theorem stAt_round (io : IO K) (n : Nat) (x : Nat → K) (v : K) (k : Nat) :
    (io.stAt n x v k).round = k := by
  induction k with
  | zero => rfl
  | succ k ih =>
    unfold IO.stAt IO.nextRound
    split_ifs with h
    · rw [ih] at h; rw [h.1]
    · simp [ih]

open Classical in
theorem stAt_succ (io : IO K) (n : Nat) (x : Nat → K) (v : K) (k : Nat) :
    io.stAt n x v (k + 1) =
      if io.switches ∧ 1 ≤ k then ⟨k + 1, io.npSum n x, 2 ^ (k - 1)⟩ else ⟨k + 1, v, 2 ^ k⟩ := by
  induction k with
  | zero =>
    rw [if_neg (by omega)]
    unfold IO.stAt IO.nextRound
    rw [if_neg (by simp [IO.stAt])]
    simp [IO.stAt]
  | succ k ih =>
    have hr := stAt_round io n x v (k + 1)
    rw [IO.stAt]
    unfold IO.nextRound
    rw [hr, ih]
    by_cases hs : io.switches
    · rw [if_pos (⟨hs, by omega⟩ : io.switches ∧ 1 ≤ k + 1)]
      cases k with
      | zero =>
        rw [if_pos ⟨rfl, hs.1, hs.2⟩]
        simp
      | succ k =>
        rw [if_neg (by omega), if_pos (⟨hs, by omega⟩ : io.switches ∧ 1 ≤ k + 1)]
        simp [pow_succ]
    · rw [if_neg (fun h => hs ⟨h.2.1, h.2.2⟩), if_neg (fun h => hs h.1), if_neg (fun h => hs h.1)]
      simp [pow_succ]

theorem stAt_red_pos (io : IO K) (n : Nat) (x : Nat → K) (v : K) (k : Nat) :
    0 < (io.stAt n x v k).red := by
  cases k with
  | zero => simp [IO.stAt]
  | succ k =>
    rw [stAt_succ]
    split_ifs <;> simp

/-- Round `k` (starting with 0) of the loop. -/
def IO.roundAt (io : IO K) (sq : K → K) (p : MVPar K) (n m : Nat) (w : Nat → Nat → K) (x : Nat → K)
    (dr : Nat → Draws K) (v : K) (k : Nat) : Except PyErr ((Nat → K) × Bool) :=
  io.analogMV sq p n m false w (dr k) (io.scaleOf (io.stAt n x v (k + 1)))
    (io.scalingOf (io.stAt n x v (k + 1))) x

theorem bmLoop_go {io : IO K} {sq : K → K} {p : MVPar K} {n m : Nat} {w : Nat → Nat → K} {x : Nat → K}
    {dr : Nat → Draws K} {v : K} (R : Nat → (Nat → K) × Bool)
    (hR : ∀ k, io.roundAt sq p n m w x dr v k = .ok (R k)) :
    ∀ (f k : Nat), (∃ i, k ≤ i ∧ i < k + f ∧
        (io.bm = .none ∨ (R i).2 = true ∨ io.limit (io.stAt n x v (i + 1)).red = true)) →
      ∃ i, k ≤ i ∧ io.bmLoop sq p n m w x dr f (io.stAt n x v k) =
          .ok ((R i).1, io.stAt n x v (i + 1)) ∧
        (io.bm = .none ∨ (R i).2 = true ∨ io.limit (io.stAt n x v (i + 1)).red = true) ∧
        ∀ i', k ≤ i' → i' < i → io.bm ≠ .none ∧ (R i').2 = false ∧
          io.limit (io.stAt n x v (i' + 1)).red = false := by
  intro f
  induction f with
  | zero => rintro k ⟨i, h1, h2, -⟩; omega
  | succ f ih =>
    rintro k ⟨i, h1, h2, h3⟩
    unfold IO.bmLoop
    have hk := hR k
    unfold IO.roundAt at hk
    simp only [stAt_round]
    have e : io.nextRound n x (io.stAt n x v k) = io.stAt n x v (k + 1) := rfl
    rw [e, hk]
    simp only
    by_cases hs : io.bm = .none ∨ (R k).2 = true ∨ io.limit (io.stAt n x v (k + 1)).red = true
    · rw [if_pos hs]
      exact ⟨k, le_refl _, rfl, hs, fun i' h h' => by omega⟩
    · rw [if_neg hs]
      have hik : i ≠ k := by rintro rfl; exact hs h3
      obtain ⟨j, j1, j2, j3, j4⟩ := ih (k + 1) ⟨i, by omega, by omega, h3⟩
      refine ⟨j, by omega, j2, j3, fun i' h h' => ?_⟩
      rcases Nat.eq_or_lt_of_le h with rfl | h
      · push Not at hs
        exact ⟨hs.1, by simpa using hs.2.1, by simpa using hs.2.2⟩
      · exact j4 i' h h'

theorem limit_of_lt {io : IO K} {r : K} (h : io.maxBmFactor < ⌊r⌋) : io.limit r = true := by
  unfold IO.limit; simp [h]

theorem floor_two_pow (k : Nat) : ⌊(2 : K) ^ k⌋ = (2 : ℤ) ^ k := by
  have : ((2 : K) ^ k) = (((2 : ℤ) ^ k : ℤ) : K) := by push_cast; rfl
  rw [this, Int.floor_intCast]

theorem limit_reached (io : IO K) (n : Nat) (x : Nat → K) (v : K) :
    io.limit (io.stAt n x v (io.maxBmFactor.toNat + 1 + 1)).red = true := by
  apply limit_of_lt
  have key : ∀ j, io.maxBmFactor.toNat ≤ j → io.maxBmFactor < (2 : ℤ) ^ j := by
    intro j hj
    have h1 : io.maxBmFactor ≤ (io.maxBmFactor.toNat : ℤ) := Int.self_le_toNat _
    have h2 : j < 2 ^ j := Nat.lt_two_pow_self
    have h3 : (j : ℤ) < (2 : ℤ) ^ j := by exact_mod_cast h2
    have h4 : (io.maxBmFactor.toNat : ℤ) ≤ j := by exact_mod_cast hj
    linarith
  rw [stAt_succ]
  split_ifs
  · rw [floor_two_pow]; exact key _ (by omega)
  · rw [floor_two_pow]; exact key _ (by omega)

/-- The loop always ends with the first round that may stop. -/
theorem bmLoop_spec {io : IO K} {sq : K → K} {p : MVPar K} {n m : Nat} {w : Nat → Nat → K}
    {x : Nat → K} {dr : Nat → Draws K} {v : K} (R : Nat → (Nat → K) × Bool)
    (hR : ∀ k, io.roundAt sq p n m w x dr v k = .ok (R k)) :
    ∃ i, io.bmLoop sq p n m w x dr io.fuel ⟨0, v, 1 / 2⟩ = .ok ((R i).1, io.stAt n x v (i + 1)) ∧
      (io.bm = .none ∨ (R i).2 = true ∨ io.limit (io.stAt n x v (i + 1)).red = true) ∧
      ∀ i' < i, io.bm ≠ .none ∧ (R i').2 = false ∧ io.limit (io.stAt n x v (i' + 1)).red = false := by
  obtain ⟨i, -, h1, h2, h3⟩ := bmLoop_go R hR io.fuel 0
    ⟨io.maxBmFactor.toNat + 1, by omega, by unfold IO.fuel; omega, Or.inr (Or.inr (limit_reached io n x v))⟩
  exact ⟨i, h1, h2, fun i' h => h3 i' (by omega) h⟩

/-- The modes that are implemented. -/
def MV.supported (t : MV) : Prop := t = .onePass ∨ t = .posNeg ∨ t = .posNegDigital

theorem analogMV_ok {io : IO K} (h : io.mvType.supported) (sq : K → K) (p : MVPar K) (n m : Nat)
    (tr : Bool) (w : Nat → Nat → K) (dr : Draws K) (scale : K) (scaling : Bool) (x : Nat → K) :
    ∃ r, io.analogMV sq p n m tr w dr scale scaling x = .ok r := by
  unfold IO.analogMV
  rcases h with h | h | h <;> rw [h] <;> exact ⟨_, rfl⟩

theorem analogMV_error {io : IO K} (h : ¬io.mvType.supported) (sq : K → K) (p : MVPar K) (n m : Nat)
    (tr : Bool) (w : Nat → Nat → K) (dr : Draws K) (scale : K) (scaling : Bool) (x : Nat → K) :
    io.analogMV sq p n m tr w dr scale scaling x = .error .runtimeError := by
  unfold IO.analogMV
  unfold MV.supported at h
  cases hm : io.mvType <;> simp [hm] at h ⊢

/-! ## Scales -/

/-- What the inputs are divided by because of the noise management. -/
def IO.nmDiv (io : IO K) (v : K) : K := if io.nm ≠ .none ∧ 0 < v then v else 1

theorem nmDiv_pos (io : IO K) (v : K) : 0 < io.nmDiv v := by
  unfold IO.nmDiv
  split_ifs with h
  · exact h.2
  · exact one_pos

theorem scaleOf_eq (io : IO K) (s : LoopSt K) :
    io.scaleOf s = 1 / (io.nmDiv s.nmv * (if io.bm ≠ .none then s.red else 1)) := by
  unfold IO.scaleOf IO.nmDiv
  by_cases h1 : io.nm ≠ .none ∧ 0 < s.nmv
  · rw [if_pos h1, if_pos h1]
    by_cases h2 : io.bm ≠ .none
    · rw [if_pos h2, if_pos h2, div_div]
    · rw [if_neg h2, if_neg h2, mul_one]
  · rw [if_neg h1, if_neg h1]
    by_cases h2 : io.bm ≠ .none
    · rw [if_pos h2, if_pos h2, one_mul]
    · rw [if_neg h2, if_neg h2, mul_one, div_one]

theorem scaleOf_pos (io : IO K) {s : LoopSt K} (h : 0 < s.red) : 0 < io.scaleOf s := by
  rw [scaleOf_eq]
  apply div_pos one_pos
  apply mul_pos (nmDiv_pos io _)
  split_ifs
  · exact h
  · exact one_pos

theorem scaleOf_noscale {io : IO K} {s : LoopSt K} (h : io.scalingOf s = false) :
    io.scaleOf s = 1 := by
  unfold IO.scalingOf at h
  rw [Bool.or_eq_false_iff, decide_eq_false_iff_not, decide_eq_false_iff_not] at h
  unfold IO.scaleOf
  rw [if_neg h.1, if_neg h.2]

theorem scaled_eq {io : IO K} (s : LoopSt K) (v : K) :
    (if io.scalingOf s = true then v * io.scaleOf s else v) = v * io.scaleOf s := by
  by_cases h : io.scalingOf s = true
  · rw [if_pos h]
  · rw [if_neg h, scaleOf_noscale (by simpa using h), mul_one]

/-- The final scaling is always by `out_scale * alpha / scale`. -/
theorem final_scale (io : IO K) (s : LoopSt K) (a : K) (y : Nat → K) :
    (if io.scalingOf s = true ∨ a ≠ 1 then (fun i => a / io.scaleOf s * y i) else y) =
      fun i => a / io.scaleOf s * y i := by
  by_cases h : io.scalingOf s = true ∨ a ≠ 1
  · rw [if_pos h]
  · rw [if_neg h]
    push Not at h
    funext i
    rw [scaleOf_noscale (by simpa using h.1), h.2]
    ring

end Aihw.CppFwd
