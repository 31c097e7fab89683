import Verif.Wpo.Model
import Mathlib.Algebra.BigOperators.Group.Finset.Basic

/-!
# Specification of a weight programming strategy
-/
namespace Aihw.Wpo

variable {K : Type} [Field K] [LinearOrder K]

/-- Weight (in conductance units) that grid point `i` of a strategy realises: `Σⱼ fⱼ (g⁺ⱼᵢ - g⁻ⱼᵢ)`; rows `2 j` and `2 j + 1` of
`g` belong to pair `j`. -/
def realised (fs : List K) (g : List (List K)) (i : Nat) : K :=
  ∑ j ∈ Finset.range fs.length, fs.getD j 0 * ((g.getD (2 * j) []).getD i 0 - (g.getD (2 * j + 1) []).getD i 0)

/-- Largest weight the pairs can represent. -/
def fullRange (d : Opt K) (fs : List K) : K := fs.sum * (d.gMax - d.gMin)

/-- A given factor is kept, an open one is within its range. -/
def FactorOk (d : Opt K) (o : Option K) (f : K) : Prop := o.elim (d.fMin ≤ f ∧ f ≤ d.fMax) (fun f0 => f = f0)

/-- A sensible optimizer with `nbins` positive grid points. -/
structure Valid (d : Opt K) (nbins : Nat) : Prop where
  range : d.gMin < d.gMax
  err : 0 ≤ d.gErr
  weights : 0 < d.maxAbs
  fpos : 0 < d.fMin
  frange : d.fMin ≤ d.fMax
  given : ∀ f, some f ∈ d.fLst → 0 < f
  pairs : d.fLst ≠ []
  bins : 2 ≤ nbins
  grid : d.grid = mkGrid d.maxAbs nbins

/-- A point of the search cube. -/
def InCube (d : Opt K) (x : List K) : Prop := x.length = numBounds d ∧ ∀ v ∈ x, 0 ≤ v ∧ v ≤ 1

end Aihw.Wpo
