import Verif.Linalg.Props2

/-!
# Concrete analog matrices
-/
namespace Aihw.Linalg
open Aihw.Periphery (Cfg)

/-- Weights scaled row by row to 3/5 on a device bounded by 1, with learning-rate compensation. -/
def exConf : Conf where
  tile o i := {
    outSize := o, inSize := i, devBound := some 1
    mapping := some { omega := some (3 / 5), columnwise := true, lrCompensation := true } }

theorem exConf_plain : exConf.Plain where
  sizes _ _ := ⟨rfl, rfl⟩
  bias _ _ := ⟨rfl, rfl⟩
  range _ _ := rfl
  exact _ _ := Or.inl ⟨_, 3 / 5, rfl, rfl, by norm_num, fun B hB => by injection hB with hB; rw [← hB]; norm_num⟩

/-- Default configuration: no scaling. -/
example : Conf.Plain { tile := fun o i => { outSize := o, inSize := i } } where
  sizes _ _ := ⟨rfl, rfl⟩
  bias _ _ := ⟨rfl, rfl⟩
  range _ _ := rfl
  exact _ _ := Or.inr ⟨rfl, fun m hm o ho => by injection hm with hm; subst hm; injection ho with ho; rw [← ho]⟩

def exM : Mat := [[1, 2, -3], [4, 0, 5]]

def exActs : List Act := [.mul true [1, 1, 1] 0, .ger 2 [([1, 0, 0], [1, -1]), ([0, 1, 0], [3, 1])], .rmul [1, 1]]

example : useArray exConf 2 3 = false ∧ useArray exConf 2 513 = true := by decide

example : IsMat 2 3 exM := ⟨rfl, by simp [exM]⟩

example : ∀ k ∈ exActs, k.Fits 2 3 := by
  intro k hk
  unfold exActs at hk
  simp only [List.mem_cons, List.not_mem_nil, or_false] at hk
  rcases hk with rfl | rfl | rfl
  · trivial
  · intro p hp
    simp only [List.mem_cons, List.not_mem_nil, or_false] at hp
    rcases hp with rfl | rfl <;> exact ⟨rfl, rfl⟩
  · trivial

/-- `M + 2 (d₁ x₁ᵀ + d₂ x₂ᵀ)` is `[[3, 8, -3], [2, 2, 5]]`. -/
example : ((AMat.new exConf exM).map fun A => ((exActs.foldl step A).matmul true [1, 1, 1] 0).1) = .ok (.ok [8, 9]) := by decide +kernel
example : ((AMat.new exConf exM).map fun A => (exActs.foldl step A).rmatmul [1, 1]) = .ok (.ok [5, 10, 2]) := by decide +kernel

/-- A square operand: the result is `X Mᵀ = [[2, 0], [4, 0]]`, not `M X = [[3, 4], [0, 0]]`. -/
example : ((AMat.new exConf [[0, 1], [0, 0]]).map fun A => A.matmat true [[1, 2], [3, 4]]) = .ok (.ok [[2, 0], [4, 0]]) := by
  decide +kernel

/-- A larger matrix on 2 × 2 tiles. -/
def exSmall : Conf := { exConf with maxIn := 2, maxOut := 1 }

example : useArray exSmall 2 3 = true := by decide

example : ((AMat.new exSmall exM).map fun A => (A.matmul false [1, 1, 1] 0).1) = .ok (.ok [0, 9]) := by decide +kernel

end Aihw.Linalg
