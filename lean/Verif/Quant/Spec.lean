import Verif.Common
import Mathlib.Algebra.BigOperators.Intervals

/-!
# Specification vocabulary for the quantizers (no model function is used here)
-/
namespace Aihw.Quant.Spec

/-- `y` is one of the values `s·kmin, s·(kmin+1), …, s·kmax`. -/
def OnGrid (s : ℚ) (kmin kmax : ℤ) (y : ℚ) : Prop := ∃ k : ℤ, kmin ≤ k ∧ k ≤ kmax ∧ y = s * k

/-- `y` is a grid value and no grid value is closer to `x`. -/
def IsNearest (G : ℚ → Prop) (x y : ℚ) : Prop := G y ∧ ∀ z : ℚ, G z → |x - y| ≤ |x - z|

/-- What a user expects of a uniform quantizer with step `s` and levels `kmin..kmax` whose
requested range is `[lo, hi]`: every input goes to a nearest level, the order is kept, quantising
twice changes nothing, zero is exact, and inside the requested range the error is at most half a
step. -/
def GoodQuantizer (s : ℚ) (kmin kmax : ℤ) (lo hi : ℚ) (f : ℚ → ℚ) : Prop :=
  0 < s ∧ kmin ≤ 0 ∧ 0 ≤ kmax ∧
  (∀ x, IsNearest (OnGrid s kmin kmax) x (f x)) ∧
  (∀ x y, x ≤ y → f x ≤ f y) ∧ (∀ x, f (f x) = f x) ∧ f 0 = 0 ∧
  (∀ x, lo ≤ x → x ≤ hi → |x - f x| ≤ s / 2)

/-- The range requested for channel `i`: the common one if a single range was given. -/
def channelRange (rs : List (ℚ × ℚ)) (i : Nat) : ℚ × ℚ :=
  match rs with
  | [r] => r
  | rs => rs.getD i (0, 0)

/-- `(lo, hi)` are the smallest and the largest of the values. -/
def IsMinMax (vals : List ℚ) (r : ℚ × ℚ) : Prop :=
  r.1 ∈ vals ∧ r.2 ∈ vals ∧ ∀ v ∈ vals, r.1 ≤ v ∧ v ≤ r.2

/-- The channels of a batch: its rows, or all elements together. -/
def channels (perRow : Bool) (rows : List (List ℚ)) : List (List ℚ) :=
  if perRow then rows else [rows.flatten]

/-- Exponential moving average of `x₀, …, x_k` (first value taken over, later ones with weight
`1 - m`): `m^k x₀ + Σ_{j≥1} (1-m) m^(k-j) x_j`. -/
def ema (m : ℚ) (l : List ℚ) : ℚ :=
  ∑ j ∈ Finset.range l.length, (if j = 0 then 1 else 1 - m) * m ^ (l.length - 1 - j) * l.getD j 0

/-- The step of a uniform quantizer with `n` bits for the range `[lo, hi]`; `neg` says whether some
channel has a negative minimum (the symmetric quantizer then spends one bit on the sign). -/
def stepSize (sym neg logDomain : Bool) (n : Nat) (eps lo hi : ℚ) : ℚ :=
  let d := if sym then
      (if neg then max |min lo 0| (max hi eps) / (2 ^ (n - 1) - 1) else max hi eps / (2 ^ n - 1))
    else (max hi eps - min lo 0) / (2 ^ n - 1)
  if logDomain then d else max d eps

end Aihw.Quant.Spec
