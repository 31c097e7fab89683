import Verif.Exper.Props

/-!
# C83: concrete cases
-/
namespace Aihw.Exper
open Aihw Aihw.Cloud

/-- A network that counts its optimization steps; samples are numbers; a sample is predicted correctly when
it is not larger than the count. -/
def exMach : Mach ℕ (List ℕ) where
  train w := w
  eval w := w
  step w b := (w + 1, (b.sum : ℚ) / (w + 1))
  predict w b := (w, mean (fun (x : ℕ) => (x : ℚ)) b, (b.filter (fun x => decide (x ≤ w))).length)
  size b := b.length

def exTrain : ℕ → List (List ℕ) := fun n => [[1, 2], [n]]
def exVal : ℕ → List (List ℕ) := fun _ => [[1, 2, 3], [4]]

/-- The hypotheses of `C83_results` hold here, and the run reports the following numbers. -/
example : ∀ i < (2 : ℤ).toNat, images (trained exMach exTrain exVal 0 i) ≠ 0 ∧
    images (validated exMach exTrain exVal 0 i) ≠ 0 := by decide +kernel

example : (localRun exMach (fun n => (n : ℚ) * n) true noHooks exTrain exVal 2 0).toOption.map (·.2) =
    some [[("epoch", 0), ("time_epoch", 1), ("accuracy", 1 / 2), ("train_loss", 2), ("valid_loss", 5 / 2)],
      [("epoch", 1), ("time_epoch", 5), ("accuracy", 1), ("train_loss", 3 / 4), ("valid_loss", 5 / 2)]] := by
  decide +kernel

/-- The hypothesis of `C83_no_samples`: an epoch without validation data. -/
example : ∃ i < (2 : ℤ).toNat, images (trained exMach exTrain (fun _ => []) 0 i) = 0 ∨
    images (validated exMach exTrain (fun _ => []) 0 i) = 0 := by decide +kernel

/-- The hypothesis of `C83_accuracy_range`. -/
example : ∀ p ∈ validated exMach exTrain exVal 0 1, p.2.1 ≤ p.1 := by decide +kernel

/-- A machine for `C83_batching`: a sample is good when it is even. -/
def exEven : Mach ℕ (List ℕ) where
  train w := w
  eval w := w
  step w _ := (w + 1, 0)
  predict w b := (w, mean (fun (x : ℕ) => (x : ℚ)) b, (b.filter (fun x => decide (x % 2 = 0))).length)
  size b := b.length

example (time : ℚ) (tr : List (ℕ × ℚ)) :
    get (report time 0 tr (valOut exEven 0 [[4, 1], [2]]).2) "accuracy" = some (2 / 3) := by
  have h := (C83_batching exEven (fun (x : ℕ) => (x : ℚ)) (fun (x : ℕ) => decide (x % 2 = 0)) (fun _ => rfl)
    (fun _ _ => by simp [exEven]) 0 [[4, 1], [2]] (by decide) [1, 2, 4] (by decide) time 0 tr).1
  rw [h]
  decide +kernel

/-- A hook that counts its calls sees all signals of an epoch: one start, and one call per batch. -/
def exCount : Table ℕ :=
  addHook (addHook noHooks .trainBatchEnd fun _ s => .ok (s + 1, none)) .epochStart
    fun _ s => .ok (s + 100, none)

example : (train exMach exCount exTrain exVal 2 0 0).toOption.map (fun r => (r.1, r.2)) =
    some ((4, 204), [[("epoch", 0)], [("epoch", 1)]]) := by decide +kernel

end Aihw.Exper
