import Verif.Calib.Model

/-!
# Vocabulary of the calibration properties

Independent of the calibration code: what a tile was fed, maxima, quantiles, means.
-/
namespace Aihw.Calib.Spec

/-- The inputs that tile `i` received during the pass, in order. -/
def fed (i : Nat) : List Event → List (List Vec)
  | [] => []
  | .raises _ :: _ => []
  | .call j x _ :: evs => if j = i then x :: fed i evs else fed i evs

/-- All entries of all rows of all inputs. -/
def entries (inputs : List (List Vec)) : Vec := inputs.flatten.flatten

/-- The rows that have a non-zero entry. -/
def nonzeroRows (inputs : List (List Vec)) : List Vec :=
  inputs.flatten.filter fun r => r.any fun x => x != 0

/-- `M` is the largest absolute value. -/
def IsMaxAbs (xs : Vec) (M : ℚ) : Prop := (∃ x ∈ xs, |x| = M) ∧ ∀ x ∈ xs, |x| ≤ M

/-- `v` is the `q`-quantile of `xs` with linear interpolation between the order statistics
`s₀ ≤ s₁ ≤ …`: the point at position `q (n - 1)`. -/
def IsQuantile (q : ℚ) (xs : Vec) (v : ℚ) : Prop :=
  ∃ s : Vec, s.Perm xs ∧ s.Pairwise (· ≤ ·) ∧ ∃ (k : Nat) (hk : k < s.length),
    (k : ℚ) ≤ q * ((s.length : ℚ) - 1) ∧ q * ((s.length : ℚ) - 1) < k + 1 ∧
    ((k : ℚ) = q * ((s.length : ℚ) - 1) ∧ v = s[k] ∨
     ∃ hk1 : k + 1 < s.length,
       v = s[k] + (q * ((s.length : ℚ) - 1) - k) * (s[k + 1] - s[k]))

/-- Every shuffle in the trace is a permutation. -/
def ShufflesOk (evs : List Event) : Prop :=
  ∀ i x σ, Event.call i x σ ∈ evs → ∀ l : List Vec, (σ l).Perm l

end Aihw.Calib.Spec
