import Mathlib.Algebra.Order.Field.Rat
import Mathlib.Data.Rat.Floor
import Mathlib.Algebra.Order.Round
import Mathlib.Algebra.BigOperators.Group.List.Basic
import Mathlib.Tactic.Ring
import Mathlib.Tactic.Linarith
import Mathlib.Tactic.FieldSimp
import Mathlib.Tactic.NormNum

/-!
# Shared vocabulary of the model

Values are rationals (exact arithmetic; every finite float is a rational).  Tensors are lists
(1-d) and lists of rows (2-d, row major).
-/
namespace Aihw

/-- The Python exceptions (and torch failure values) that the modelled code can raise.
`nanInf` marks a torch division by zero, which in torch silently yields NaN/inf. -/
inductive PyErr where
  | zeroDivision | valueError | attributeError | unboundLocal | indexError | keyError
  | typeError | runtimeError | assertion | notImplemented | arithmetic
  | configError | tileError | tileModuleError | moduleError | argumentError | exportError
  | analogBias | nanInf | quantNotInit | other
  deriving DecidableEq, Repr

abbrev Vec := List ℚ
abbrev Mat := List (List ℚ)

/-- `torch.clamp(x, min=lo, max=hi)` (elementwise): `min(max(x, lo), hi)`. -/
def clamp (lo hi x : ℚ) : ℚ := min (max x lo) hi

/-- `torch.clamp(x, min=lo)`. -/
def clampMin (lo x : ℚ) : ℚ := max x lo

/-- Dot product of two vectors. -/
def dot (a b : Vec) : ℚ := (List.zipWith (· * ·) a b).sum

/-- Matrix-vector product, one entry per row. -/
def matVec (w : Mat) (x : Vec) : Vec := w.map fun r => dot r x

/-- Elementwise sum of two vectors. -/
def vadd (a b : Vec) : Vec := List.zipWith (· + ·) a b

/-- A matrix with `m` rows, each of length `n`. -/
def IsMat (m n : Nat) (w : Mat) : Prop := w.length = m ∧ ∀ r ∈ w, r.length = n

/-- `max` over `|x|` of a list (0 for the empty list; torch raises there, callers guard). -/
def absMax (v : Vec) : ℚ := (v.map (|·|)).foldr max 0

/-- torch / Python rounding: nearest integer, ties to even. -/
def roundHE (x : ℚ) : ℤ :=
  let f := ⌊x⌋
  let d := x - f
  if d < 1 / 2 then f
  else if 1 / 2 < d then f + 1
  else if f % 2 = 0 then f else f + 1

/-! ## Basic lemmas -/

theorem clamp_le (lo hi x : ℚ) : clamp lo hi x ≤ hi := min_le_right _ _

theorem le_clamp {lo hi : ℚ} (h : lo ≤ hi) (x : ℚ) : lo ≤ clamp lo hi x :=
  le_min (le_max_right _ _) h

theorem clamp_of_mem {lo hi x : ℚ} (h1 : lo ≤ x) (h2 : x ≤ hi) : clamp lo hi x = x := by
  unfold clamp; rw [max_eq_left h1, min_eq_left h2]

theorem clamp_mono {lo hi x y : ℚ} (h : x ≤ y) : clamp lo hi x ≤ clamp lo hi y :=
  min_le_min_right _ (max_le_max_right _ h)

theorem clamp_idem {lo hi : ℚ} (h : lo ≤ hi) (x : ℚ) :
    clamp lo hi (clamp lo hi x) = clamp lo hi x :=
  clamp_of_mem (le_clamp h x) (clamp_le _ _ _)

theorem clamp_neg {b x : ℚ} (hb : 0 ≤ b) : clamp (-b) b (-x) = -clamp (-b) b x := by
  unfold clamp
  rcases le_total x b with h1 | h1 <;> rcases le_total (-b) x with h2 | h2 <;>
    simp only [max_def, min_def] <;> split_ifs <;> linarith

@[simp] theorem dot_nil_left (b : Vec) : dot [] b = 0 := by simp [dot]
@[simp] theorem dot_nil_right (a : Vec) : dot a [] = 0 := by simp [dot]
@[simp] theorem dot_cons (a b : ℚ) (as bs : Vec) : dot (a :: as) (b :: bs) = a * b + dot as bs := by
  simp [dot]

theorem dot_append (a₁ a₂ b₁ b₂ : Vec) (h : a₁.length = b₁.length) :
    dot (a₁ ++ a₂) (b₁ ++ b₂) = dot a₁ b₁ + dot a₂ b₂ := by
  induction a₁ generalizing b₁ with
  | nil =>
    cases b₁ with
    | nil => simp
    | cons _ _ => simp at h
  | cons a as ih =>
    cases b₁ with
    | nil => simp at h
    | cons b bs =>
      simp only [List.length_cons, Nat.add_right_cancel_iff] at h
      simp only [List.cons_append, dot_cons, ih bs h]; ring

theorem dot_smul_left (c : ℚ) (a b : Vec) : dot (a.map (c * ·)) b = c * dot a b := by
  induction a generalizing b with
  | nil => simp
  | cons a as ih =>
    cases b with
    | nil => simp
    | cons b bs => simp only [List.map_cons, dot_cons, ih]; ring

theorem dot_smul_right (c : ℚ) (a b : Vec) : dot a (b.map (c * ·)) = c * dot a b := by
  induction a generalizing b with
  | nil => simp
  | cons a as ih =>
    cases b with
    | nil => simp
    | cons b bs => simp only [List.map_cons, dot_cons, ih]; ring

theorem absMax_nonneg (v : Vec) : 0 ≤ absMax v := by
  unfold absMax
  induction v with
  | nil => simp
  | cons a v ih => simp only [List.map_cons, List.foldr_cons]; exact le_max_of_le_right ih

theorem abs_le_absMax {v : Vec} {a : ℚ} (h : a ∈ v) : |a| ≤ absMax v := by
  unfold absMax
  induction v with
  | nil => simp at h
  | cons b v ih =>
    simp only [List.map_cons, List.foldr_cons]
    rcases List.mem_cons.1 h with rfl | h
    · exact le_max_left _ _
    · exact le_max_of_le_right (ih h)

theorem absMax_mem {v : Vec} (h : v ≠ []) : ∃ a ∈ v, absMax v = |a| := by
  induction v with
  | nil => exact absurd rfl h
  | cons b v ih =>
    by_cases hv : v = []
    · subst hv; exact ⟨b, by simp, by simp [absMax]⟩
    · obtain ⟨a, ha, e⟩ := ih hv
      have e' : absMax (b :: v) = max |b| (absMax v) := rfl
      rcases le_total |b| (absMax v) with hh | hh
      · exact ⟨a, List.mem_cons_of_mem _ ha, by rw [e', max_eq_right hh, e]⟩
      · exact ⟨b, by simp, by rw [e', max_eq_left hh]⟩

theorem absMax_le {v : Vec} {b : ℚ} (hb : 0 ≤ b) (h : ∀ a ∈ v, |a| ≤ b) : absMax v ≤ b := by
  unfold absMax
  induction v with
  | nil => simpa
  | cons a v ih =>
    simp only [List.map_cons, List.foldr_cons]
    exact max_le (h a (by simp)) (ih fun x hx => h x (List.mem_cons_of_mem _ hx))

theorem absMax_map_div {c : ℚ} (hc : 0 < c) (v : Vec) :
    absMax (v.map (· / c)) = absMax v / c := by
  unfold absMax
  induction v with
  | nil => simp
  | cons a v ih =>
    simp only [List.map_cons, List.foldr_cons, ih, abs_div, abs_of_pos hc]
    rcases le_total |a| ((List.map (fun x => |x|) v).foldr max 0) with h | h
    · rw [max_eq_right h, max_eq_right (div_le_div_of_nonneg_right h hc.le)]
    · rw [max_eq_left h, max_eq_left (div_le_div_of_nonneg_right h hc.le)]

/-! ### Rounding -/

theorem roundHE_cases (x : ℚ) : roundHE x = ⌊x⌋ ∨ roundHE x = ⌊x⌋ + 1 := by
  simp only [roundHE]; split_ifs <;> simp

theorem abs_sub_roundHE (x : ℚ) : |x - roundHE x| ≤ 1 / 2 := by
  have h1 := Int.floor_le x
  have h2 := Int.lt_floor_add_one x
  simp only [roundHE]
  split_ifs with a b c <;> rw [abs_le] <;> push_cast <;> constructor <;> linarith

theorem roundHE_intCast (n : ℤ) : roundHE (n : ℚ) = n := by
  simp [roundHE]

theorem roundHE_mono {x y : ℚ} (h : x ≤ y) : roundHE x ≤ roundHE y := by
  have hf : ⌊x⌋ ≤ ⌊y⌋ := Int.floor_le_floor h
  rcases lt_or_eq_of_le hf with hlt | heq
  · rcases roundHE_cases x with e | e <;> rcases roundHE_cases y with e' | e' <;> omega
  · simp only [roundHE, heq]
    have : x - (⌊y⌋ : ℚ) ≤ y - ⌊y⌋ := by linarith
    split_ifs <;> first | omega | (exfalso; linarith)

theorem roundHE_neg (x : ℚ) : roundHE (-x) = -roundHE x := by
  by_cases hx : (⌊x⌋ : ℚ) = x
  · rw [← hx, ← Int.cast_neg, roundHE_intCast, roundHE_intCast]
  · have h1 := Int.floor_le x
    have h2 := Int.lt_floor_add_one x
    have h1' : (⌊x⌋ : ℚ) < x := lt_of_le_of_ne h1 hx
    have hfl : ⌊-x⌋ = -⌊x⌋ - 1 := by
      rw [Int.floor_eq_iff]; push_cast; constructor <;> linarith
    simp only [roundHE, hfl]
    push_cast
    split_ifs <;> first | omega | (exfalso; linarith)

theorem roundHE_eq_of_abs_lt {x : ℚ} {n : ℤ} (h : |x - n| < 1 / 2) : roundHE x = n := by
  have h3 := abs_sub_roundHE x
  rw [abs_lt] at h
  rw [abs_le] at h3
  have a : ((roundHE x : ℤ) : ℚ) - n < 1 := by linarith
  have b : (-1 : ℚ) < (roundHE x : ℚ) - n := by linarith
  have a' : roundHE x - n < 1 := by exact_mod_cast a
  have b' : -1 < roundHE x - n := by exact_mod_cast b
  omega

/-! ## Monadic helpers -/

theorem mapM_ok_forall₂ {α β : Type} {f : α → Except PyErr β} {l : List α} {r : List β}
    (h : l.mapM f = .ok r) : List.Forall₂ (fun a b => f a = .ok b) l r := by
  induction l generalizing r with
  | nil => simp [pure, Except.pure] at h; subst h; exact .nil
  | cons a l ih =>
    rw [List.mapM_cons] at h
    cases ha : f a with
    | error e => simp [ha, bind, Except.bind] at h
    | ok b =>
      cases hl : l.mapM f with
      | error e => simp [ha, hl, bind, Except.bind] at h
      | ok bs =>
        simp [ha, hl, bind, Except.bind, pure, Except.pure] at h
        subst h
        exact .cons ha (ih hl)

theorem forall₂_mapM_ok {α β : Type} {f : α → Except PyErr β} {l : List α} {r : List β}
    (h : List.Forall₂ (fun a b => f a = .ok b) l r) : l.mapM f = .ok r := by
  induction h with
  | nil => rfl
  | cons ha _ ih =>
    rw [List.mapM_cons, ha, ih]; rfl

end Aihw
