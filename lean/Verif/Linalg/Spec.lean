import Verif.Linalg.Model


/-!
# Specification
-/
namespace Aihw.Linalg
open Aihw.Periphery (Cfg)

/-- The tile stores matrices exactly: weights are scaled to `omega`, which the device can hold, or are not scaled and the device is
not bounded. -/
def Exact (c : Cfg) : Prop :=
  (∃ m o, c.mapping = some m ∧ m.omega = some o ∧ 0 < o ∧ ∀ B, c.devBound = some B → o ≤ B) ∨
    (c.devBound = none ∧ ∀ m, c.mapping = some m → ∀ o, m.omega = some o → o ≤ 0)

/-- A configuration of analog matrices: tiles of the asked sizes, without bias and input range, which store exactly. -/
structure Conf.Plain (c : Conf) : Prop where
  sizes : ∀ o i, (c.tile o i).outSize = o ∧ (c.tile o i).inSize = i
  bias : ∀ o i, (c.tile o i).analogBias = false ∧ (c.tile o i).digitalBias = false
  range : ∀ o i, (c.tile o i).inputRange = none
  exact : ∀ o i, Exact (c.tile o i)

/-- The calls of a history have operands of the right sizes. -/
def Act.Fits (out inn : Nat) : Act → Prop
  | .ger _ b => ∀ p ∈ b, p.1.length = inn ∧ p.2.length = out
  | _ => True

/-- What a call adds to entry `(i, j)`: `alpha` times the sum of the outer products `d xᵀ`. -/
def Act.adds (i j : Nat) : Act → ℚ
  | .ger a b => a * (b.map fun p => p.2.getD i 0 * p.1.getD j 0).sum
  | _ => 0

/-- Entry `(i, j)` of the matrix after a history. -/
def expected (M : Mat) (acts : List Act) (i j : Nat) : ℚ := (M.getD i []).getD j 0 + (acts.map (Act.adds i j)).sum

end Aihw.Linalg
